import Verif.Spec.Serialize
/- Helper lemmas for the serialization properties. -/
set_option linter.unusedSimpArgs false
namespace Maf

theorem leBytes_length (w n : Nat) : (leBytes w n).length = w := by
  induction w generalizing n with
  | zero => rfl
  | succ w ih => simp [leBytes, ih]

theorem leNat_leBytes (w n : Nat) : leNat (leBytes w n) = n % 256 ^ w := by
  induction w generalizing n with
  | zero => simp [leBytes, leNat, Nat.mod_one]
  | succ w ih =>
    simp only [leBytes, leNat, ih]
    have h : (UInt8.ofNat n).toNat = n % 256 := by simp [UInt8.toNat_ofNat']
    rw [h, Nat.pow_succ, Nat.mul_comm (256 ^ w) 256, Nat.mod_mul]

theorem numOfBytes_leBytes (w : Nat) (v : Fin (256 ^ w)) : numOfBytes w (leBytes w v.val) = v := by
  apply Fin.ext
  simp [numOfBytes, leNat_leBytes, Nat.mod_eq_of_lt v.isLt]

theorem charsBytes_length {cw : Nat} (v : List (Fin (256 ^ cw))) :
    (charsBytes v).length = v.length * cw := by
  induction v with
  | nil => simp [charsBytes]
  | cons c cs ih => simp [charsBytes, leBytes_length, ih, Nat.add_mul, Nat.add_comm]

theorem charsOfBytes_charsBytes {cw : Nat} (v : List (Fin (256 ^ cw))) :
    charsOfBytes cw v.length (charsBytes v) = v := by
  induction v with
  | nil => rfl
  | cons c cs ih =>
    have h := leBytes_length cw c.val
    simp only [charsBytes, List.length_cons, charsOfBytes]
    rw [List.take_append_of_le_length (by omega), List.take_of_length_le (by omega),
      List.drop_append_of_le_length (by omega), List.drop_of_length_le (by omega)]
    simp [numOfBytes_leBytes, ih]

/-- `s'` is `s` after successfully reading `n` bytes. -/
structure Adv (s s' : IStream) (n : Nat) : Prop where
  buf : s'.buf = s.buf
  pos : s'.pos = s.pos + n
  usable : s'.Usable

theorem Adv.remaining {s s' : IStream} {bs rest : Bytes} (h : Adv s s' bs.length)
    (hr : s.remaining = bs ++ rest) : s'.remaining = rest := by
  unfold IStream.remaining at *
  rw [h.buf, h.pos, ← List.drop_drop, hr]
  simp

theorem Adv.trans {s s' s'' : IStream} {n m : Nat} (h : Adv s s' n) (h' : Adv s' s'' m) :
    Adv s s'' (n + m) :=
  ⟨h'.buf.trans h.buf, by rw [h'.pos, h.pos]; omega, h'.usable⟩

theorem remaining_length {s : IStream} : s.remaining.length = s.buf.length - s.pos := by
  simp [IStream.remaining]

theorem read_ok {s : IStream} {bs rest : Bytes} (hs : s.Usable) (hr : s.remaining = bs ++ rest)
    {n : Nat} (hn : n = bs.length) :
    (s.read n).1 = some bs ∧ Adv s (s.read n).2 n := by
  have hl : s.buf.length - s.pos = bs.length + rest.length := by
    rw [← remaining_length, hr]; simp
  have hi := hs.inside
  have hle : ¬ (s.pos + n > s.buf.length) := by omega
  have hb : (s.buf.drop s.pos).take n = bs := by
    have : s.buf.drop s.pos = bs ++ rest := hr
    rw [this, hn]; simp
  unfold IStream.read
  simp only [hs.good, if_true, hle, if_false, hb]
  refine ⟨trivial, rfl, rfl, ⟨rfl, hs.nofail, ?_⟩⟩
  show s.pos + n ≤ s.buf.length
  omega

theorem read_short {s : IStream} (hs : s.Usable) {n : Nat} (h : s.remaining.length < n) :
    (s.read n).1 = none ∧ (s.read n).2.Dead := by
  have hi := hs.inside
  rw [remaining_length] at h
  have hle : s.pos + n > s.buf.length := by omega
  unfold IStream.read
  simp [hs.good, hle, IStream.Dead]

theorem read_dead {s : IStream} (hs : s.Dead) (n : Nat) :
    (s.read n).1 = none ∧ (s.read n).2.Dead := by
  unfold IStream.read
  simp [hs.1, IStream.Dead]

theorem deserNum_ok {w : Nat} {v old : Fin (256 ^ w)} {s : IStream} {rest : Bytes}
    (hs : s.Usable) (hr : s.remaining = leBytes w v.val ++ rest) :
    (deserNum w old s).ok = true ∧ (deserNum w old s).val = v ∧ Adv s (deserNum w old s).st w := by
  obtain ⟨h1, h2⟩ := read_ok hs hr (leBytes_length w v.val).symm
  simp [deserNum, h1, h2, h2.usable.nofail, numOfBytes_leBytes]

/-- Reading back a 32-bit size. -/
theorem deserSize_ok {n : Nat} (hn : n < 2 ^ 32) {s : IStream} {rest : Bytes}
    (hs : s.Usable) (hr : s.remaining = leBytes 4 n ++ rest) :
    (deserNum 4 (zeroNum 4) s).ok = true ∧ (deserNum 4 (zeroNum 4) s).val.val = n ∧
      Adv s (deserNum 4 (zeroNum 4) s).st 4 := by
  have := deserNum_ok (w := 4) (v := ⟨n, by simpa using hn⟩) (old := zeroNum 4) hs hr
  exact ⟨this.1, by rw [this.2.1], this.2.2⟩

/-- What a correct reader of the encoding `enc x` does. -/
def ReadsBack {α : Type} (f : IStream → DR α) (enc : Bytes) (x : α) : Prop :=
  ∀ s rest, s.Usable → s.remaining = enc ++ rest →
    (f s).ok = true ∧ (f s).val = x ∧ Adv s (f s).st enc.length

theorem deserLoop_ok {α β : Type} (elem : IStream → DR α) (push : List β → α → List β)
    (enc : α → Bytes) (xs : List α) (h : ∀ x ∈ xs, ReadsBack elem (enc x) x)
    (c : List β) (s : IStream) (rest : Bytes) (hs : s.Usable)
    (hr : s.remaining = xs.flatMap enc ++ rest) :
    (deserLoop elem push xs.length true c s).ok = true ∧
    (deserLoop elem push xs.length true c s).val = xs.foldl push c ∧
    Adv s (deserLoop elem push xs.length true c s).st (xs.flatMap enc).length := by
  induction xs generalizing c s with
  | nil => exact ⟨rfl, rfl, rfl, rfl, hs⟩
  | cons x xs ih =>
    simp only [List.flatMap_cons, List.append_assoc] at hr
    obtain ⟨h1, h2, h3⟩ := h x (by simp) s _ hs hr
    have hr' := h3.remaining hr
    obtain ⟨i1, i2, i3⟩ := ih (fun y hy => h y (by simp [hy])) (push c x) _ h3.usable hr'
    simp only [List.length_cons, deserLoop, Bool.true_or, if_true, h2]
    refine ⟨i1, by simpa using i2, ?_⟩
    have := h3.trans i3
    simpa using this

theorem deserCont_ok {α β : Type} (elem : IStream → DR α) (push : List β → α → List β)
    (enc : α → Bytes) (xs : List α) (hlen : xs.length < 2 ^ 32)
    (h : ∀ x ∈ xs, ReadsBack elem (enc x) x) (c : List β) (s : IStream) (rest : Bytes)
    (hs : s.Usable) (hr : s.remaining = (leBytes 4 xs.length ++ xs.flatMap enc) ++ rest) :
    (deserCont elem push c s).ok = true ∧
    (deserCont elem push c s).val = xs.foldl push c ∧
    Adv s (deserCont elem push c s).st (leBytes 4 xs.length ++ xs.flatMap enc).length := by
  rw [List.append_assoc] at hr
  obtain ⟨n1, n2, n3⟩ := deserSize_ok hlen hs hr
  have n3' : Adv s (deserNum 4 (zeroNum 4) s).st (leBytes 4 xs.length).length := by
    rw [leBytes_length]; exact n3
  have hr' := n3'.remaining hr
  obtain ⟨l1, l2, l3⟩ := deserLoop_ok elem push enc xs h c _ rest n3.usable hr'
  have hadv := n3'.trans l3
  simp only [deserCont, n1, n2, Bool.false_or, Bool.true_and, List.length_append]
  by_cases h0 : xs.length > 0
  · simp only [h0, decide_true, if_true]
    exact ⟨l1, l2, hadv⟩
  · have : xs = [] := List.eq_nil_of_length_eq_zero (by omega)
    subst this
    simp only [List.length_nil, Nat.lt_irrefl, decide_false, Bool.false_eq_true, if_false,
      gt_iff_lt]
    exact ⟨trivial, rfl, by simpa using n3'⟩

theorem foldl_snoc {α : Type} (xs c : List α) :
    xs.foldl (fun c x => c ++ [x]) c = c ++ xs := by
  induction xs generalizing c with
  | nil => simp
  | cons x xs ih => simp [ih]

theorem insertBy_last {α : Type} (lt : α → α → Bool) (x : α) (ys : List α)
    (h : ∀ y ∈ ys, lt y x = true) (ha : ∀ y ∈ ys, lt x y = false) :
    insertBy lt x ys = ys ++ [x] := by
  induction ys with
  | nil => rfl
  | cons y ys ih =>
    simp [insertBy, h y (by simp), ha y (by simp),
      ih (fun z hz => h z (by simp [hz])) (fun z hz => ha z (by simp [hz]))]

theorem foldl_insertBy {α : Type} (lt : α → α → Bool) (has : ∀ a b, lt a b = true → lt b a = false)
    (xs c : List α) (h : (c ++ xs).Pairwise (fun a b => lt a b = true)) :
    xs.foldl (fun c x => insertBy lt x c) c = c ++ xs := by
  induction xs generalizing c with
  | nil => simp
  | cons x xs ih =>
    have hlast : insertBy lt x c = c ++ [x] := by
      apply insertBy_last
      · intro y hy
        exact (List.pairwise_append.mp h).2.2 y hy x (by simp)
      · intro y hy
        exact has _ _ ((List.pairwise_append.mp h).2.2 y hy x (by simp))
    simp only [List.foldl_cons, hlast]
    rw [ih (c ++ [x]) (by simpa using h)]
    simp

theorem deserPair_ok {α β : Type} (fa : α → IStream → DR α) (fb : β → IStream → DR β)
    (oa : α) (ob : β) (ea eb : Bytes) (a : α) (b : β) (ha : ReadsBack (fa oa) ea a)
    (hb : ReadsBack (fb ob) eb b) : ReadsBack (deserPair fa fb (oa, ob)) (ea ++ eb) (a, b) := by
  intro s rest hs hr
  rw [List.append_assoc] at hr
  obtain ⟨a1, a2, a3⟩ := ha s _ hs hr
  obtain ⟨b1, b2, b3⟩ := hb _ rest a3.usable (a3.remaining hr)
  simp only [deserPair, a1, Bool.false_or, if_true, Bool.true_or, a2, b2, true_and]
  rw [List.length_append]
  exact a3.trans b3

theorem altIndex_lt : (ts : Tys) → (a : ts.Alt) → ts.altIndex a < ts.length
  | .nil, e => e.elim
  | .cons _ _, .inl _ => by simp [Tys.altIndex, Tys.length]
  | .cons _ ts, .inr a => by
    have := altIndex_lt ts a
    simp [Tys.altIndex, Tys.length]; omega

mutual
theorem dflt_fresh : (t : Ty) → t.Fresh t.dflt
  | .num _ => by simp [Ty.Fresh]
  | .str _ => by simp [Ty.Fresh, Ty.dflt]
  | .ptr _ _ => by simp [Ty.Fresh]
  | .seq _ => by simp [Ty.Fresh, Ty.dflt]
  | .set _ => by simp [Ty.Fresh, Ty.dflt]
  | .map _ _ => by simp [Ty.Fresh, Ty.dflt]
  | .pair a b => by simp only [Ty.Fresh, Ty.dflt]; exact ⟨dflt_fresh a, dflt_fresh b⟩
  | .tup ts => by simp only [Ty.Fresh, Ty.dflt]; exact dfltTuple_fresh ts
  | .var _ _ => by simp [Ty.Fresh]
theorem dfltTuple_fresh : (ts : Tys) → ts.FreshTuple ts.dfltTuple
  | .nil => by simp [Tys.FreshTuple]
  | .cons t ts => by
    simp only [Tys.FreshTuple, Tys.dfltTuple]; exact ⟨dflt_fresh t, dfltTuple_fresh ts⟩
end

mutual
theorem deser_ok (lt : Orders) (hlt : lt.Asymm) : (t : Ty) → t.Supported → (v : t.Val) →
    t.Fits lt v → (old : t.Val) → t.Fresh old → ReadsBack (t.deser lt old) (t.ser v) v
  | .num w, _, v, _, old, _ => by
    intro s rest hs hr
    obtain ⟨h1, h2, h3⟩ := deserNum_ok (old := old) hs hr
    simp only [Ty.deser, Ty.dflt, Ty.ser, leBytes_length]
    exact ⟨h1, h2, h3⟩
  | .str cw, _, v, hf, old, ho => by
    intro s rest hs hr
    simp only [Ty.Fresh] at ho; subst ho
    simp only [Ty.ser, List.append_assoc] at hr
    simp only [Ty.Fits] at hf
    obtain ⟨n1, n2, n3⟩ := deserSize_ok hf hs hr
    have n3' : Adv s (deserNum 4 (zeroNum 4) s).st (leBytes 4 v.length).length := by
      rw [leBytes_length]; exact n3
    have hr' := n3'.remaining hr
    obtain ⟨r1, r2⟩ := read_ok n3.usable hr' (charsBytes_length v).symm
    simp only [Ty.deser, Ty.dflt, Ty.ser, deserStr, n1, n2, if_true]
    rw [List.length_append]
    by_cases h0 : v.length > 0
    · simp only [h0, if_true, r1]
      refine ⟨by simp [r2.usable.nofail], charsOfBytes_charsBytes v, ?_⟩
      rw [charsBytes_length]
      exact n3'.trans r2
    · have hv : v = [] := List.eq_nil_of_length_eq_zero (by omega)
      subst hv
      simp only [List.length_nil, Nat.lt_irrefl, if_false, gt_iff_lt]
      refine ⟨by simp [n3.usable.nofail], trivial, ?_⟩
      simpa [charsBytes] using n3'
  | .ptr sm t, ht, v, hf, old, ho => by
    intro s rest hs hr
    cases v with
    | none =>
      simp only [Ty.ser] at hr ⊢
      obtain ⟨r1, r2⟩ := read_ok hs hr (n := 1) rfl
      simp only [Ty.deser, r1, ne_eq, not_true_eq_false, if_false]
      exact ⟨trivial, trivial, r2⟩
    | some x =>
      simp only [Ty.ser] at hr ⊢
      have hr1 : s.remaining = [1] ++ (t.ser x ++ rest) := by simpa using hr
      obtain ⟨r1, r2⟩ := read_ok hs hr1 (n := 1) rfl
      have ih := deser_ok lt hlt t (by simpa [Ty.Supported] using ht) x
        (by simp only [Ty.Fits] at hf; exact hf x rfl) _ (dflt_fresh t)
      obtain ⟨e1, e2, e3⟩ := ih _ rest r2.usable (Adv.remaining (bs := [1]) r2 hr1)
      have h10 : (1 : UInt8) ≠ 0 := by decide
      simp only [Ty.deser, r1, ne_eq, h10, not_false_eq_true, if_true, e1, e2, true_and]
      have := r2.trans e3
      rw [Nat.add_comm] at this
      simpa using this
  | .seq t, ht, v, hf, old, ho => by
    intro s rest hs hr
    simp only [Ty.Fresh] at ho; subst ho
    simp only [Ty.Fits] at hf
    simp only [Ty.ser] at hr ⊢
    simp only [Ty.deser, Ty.dflt]
    have := deserCont_ok (fun s => t.deser lt t.dflt s) (fun c x => c ++ [x]) t.ser v hf.1
      (fun x hx => deser_ok lt hlt t (by simpa [Ty.Supported] using ht) x (hf.2 x hx) _ (dflt_fresh t)) [] s rest hs hr
    rw [foldl_snoc] at this
    simpa using this
  | .set t, ht, v, hf, old, ho => by
    intro s rest hs hr
    simp only [Ty.Fresh] at ho; subst ho
    simp only [Ty.Fits] at hf
    simp only [Ty.ser] at hr ⊢
    simp only [Ty.deser, Ty.dflt]
    have := deserCont_ok (fun s => t.deser lt t.dflt s) (fun c x => insertBy (lt t) x c) t.ser v hf.1
      (fun x hx => deser_ok lt hlt t (by simpa [Ty.Supported] using ht) x (hf.2.1 x hx) _ (dflt_fresh t)) [] s rest hs hr
    rw [foldl_insertBy (lt t) (hlt t) v [] (by simpa using hf.2.2)] at this
    simpa using this
  | .map k w, ht, v, hf, old, ho => by
    intro s rest hs hr
    simp only [Ty.Fresh] at ho; subst ho
    simp only [Ty.Supported] at ht
    simp only [Ty.Fits] at hf
    simp only [Ty.ser] at hr ⊢
    simp only [Ty.deser, Ty.dflt]
    have := deserCont_ok (fun s => deserPair (fun o s => k.deser lt o s) (fun o s => w.deser lt o s)
        (k.dflt, w.dflt) s) (fun c x => insertBy (fun a b => lt k a.1 b.1) x c)
      (fun x => k.ser x.1 ++ w.ser x.2) v hf.1
      (fun x hx => deserPair_ok _ _ _ _ _ _ _ _ (deser_ok lt hlt k ht.1 x.1 (hf.2.1 x hx).1 _ (dflt_fresh k))
        (deser_ok lt hlt w ht.2 x.2 (hf.2.1 x hx).2 _ (dflt_fresh w))) [] s rest hs hr
    rw [foldl_insertBy (fun a b => lt k a.1 b.1) (fun a b => hlt k a.1 b.1) v []
      (by simpa using hf.2.2)] at this
    simpa using this
  | .pair a b, ht, v, hf, old, ho => by
    simp only [Ty.Fresh] at ho
    simp only [Ty.Supported] at ht
    simp only [Ty.Fits] at hf
    have := deserPair_ok (fun o s => a.deser lt o s) (fun o s => b.deser lt o s) old.1 old.2
      (a.ser v.1) (b.ser v.2) v.1 v.2 (deser_ok lt hlt a ht.1 v.1 hf.1 _ ho.1)
        (deser_ok lt hlt b ht.2 v.2 hf.2 _ ho.2)
    intro s rest hs hr
    simp only [Ty.ser] at hr ⊢
    simp only [Ty.deser, Ty.dflt]
    exact this s rest hs hr
  | .tup ts, ht, v, hf, old, ho => by
    intro s rest hs hr
    simp only [Ty.Fresh] at ho
    simp only [Ty.Supported] at ht
    simp only [Ty.Fits] at hf
    simp only [Ty.ser] at hr ⊢
    simp only [Ty.deser, Ty.dflt]
    obtain ⟨h1, h2, h3⟩ := deserTuple_ok lt hlt ts ht.2 v hf false old ho s rest hs hr
    refine ⟨?_, h2, h3⟩
    rw [h1]
    cases ts with
    | nil => exact absurd rfl ht.1
    | cons t ts => simp [Tys.length]
  | .var t ts, ht, v, hf, old, ho => by
    intro s rest hs hr
    simp only [Ty.Supported] at ht
    cases v with
    | inl x =>
      simp only [Ty.Fits] at hf
      simp only [Ty.ser, List.append_assoc] at hr ⊢
      obtain ⟨n1, n2, n3⟩ := deserSize_ok (n := 0) (by decide) hs hr
      have n3' : Adv s (deserNum 4 (zeroNum 4) s).st (leBytes 4 0).length := by
        rw [leBytes_length]; exact n3
      obtain ⟨e1, e2, e3⟩ := deser_ok lt hlt t ht.2.1 x hf _ (dflt_fresh t) _ rest n3.usable (n3'.remaining hr)
      have hlt0 : 0 < ts.length + 1 := by omega
      simp only [Ty.deser, n1, n2, hlt0, decide_true, Bool.and_self, if_true, e1, e2, true_and]
      rw [List.length_append]
      exact n3'.trans e3
    | inr a =>
      simp only [Ty.Fits] at hf
      simp only [Ty.ser, List.append_assoc] at hr ⊢
      have hidx := altIndex_lt ts a
      obtain ⟨n1, n2, n3⟩ := deserSize_ok (n := ts.altIndex a + 1) (by omega) hs hr
      have n3' : Adv s (deserNum 4 (zeroNum 4) s).st (leBytes 4 (ts.altIndex a + 1)).length := by
        rw [leBytes_length]; exact n3
      obtain ⟨e1, e2, e3⟩ := deserAlt_ok lt hlt ts ht.2.2 a hf _ rest n3.usable (n3'.remaining hr)
      have hlt0 : ts.altIndex a + 1 < ts.length + 1 := by omega
      simp only [Ty.deser, n1, n2, hlt0, decide_true, Bool.and_self, if_true, e2, true_and]
      rw [List.length_append]
      exact n3'.trans e3
theorem deserTuple_ok (lt : Orders) (hlt : lt.Asymm) : (ts : Tys) → ts.AllSupported →
    (v : ts.Tuple) → ts.FitsTuple lt v → (b : Bool) →
    (old : ts.Tuple) → ts.FreshTuple old → (s : IStream) → (rest : Bytes) →
    s.Usable → s.remaining = ts.serTuple v ++ rest →
    (ts.deserTuple lt b old s).ok = (b || decide (ts.length > 0)) ∧
    (ts.deserTuple lt b old s).val = v ∧
    Adv s (ts.deserTuple lt b old s).st (ts.serTuple v).length
  | .nil, _, v, _, b, old, _, s, rest, hs, hr => by
    simp only [Tys.deserTuple, Tys.serTuple, Tys.length]
    exact ⟨by simp, trivial, rfl, rfl, hs⟩
  | .cons t ts, ht, v, hf, b, old, ho, s, rest, hs, hr => by
    simp only [Tys.AllSupported] at ht
    simp only [Tys.FitsTuple] at hf
    simp only [Tys.FreshTuple] at ho
    simp only [Tys.serTuple, List.append_assoc] at hr
    obtain ⟨a1, a2, a3⟩ := deser_ok lt hlt t ht.1 v.1 hf.1 _ ho.1 s _ hs hr
    obtain ⟨b1, b2, b3⟩ := deserTuple_ok lt hlt ts ht.2 v.2 hf.2 true _ ho.2 _ rest a3.usable
      (a3.remaining hr)
    simp only [Tys.deserTuple, Tys.dfltTuple, a1, Bool.or_true, b1, a2, b2, Tys.serTuple,
      Tys.length]
    refine ⟨by simp, trivial, ?_⟩
    rw [List.length_append]
    exact a3.trans b3
theorem deserAlt_ok (lt : Orders) (hlt : lt.Asymm) : (ts : Tys) → ts.AllSupported →
    (a : ts.Alt) → ts.FitsAlt lt a → ReadsBack (ts.deserAlt lt (ts.altIndex a)) (ts.serAlt a) (some a)
  | .nil, _, a, _ => a.elim
  | .cons t ts, ht, a, hf => by
    intro s rest hs hr
    simp only [Tys.AllSupported] at ht
    cases a with
    | inl x =>
      simp only [Tys.FitsAlt] at hf
      simp only [Tys.serAlt] at hr ⊢
      obtain ⟨e1, e2, e3⟩ := deser_ok lt hlt t ht.1 x hf _ (dflt_fresh t) s rest hs hr
      simp only [Tys.altIndex, Tys.deserAlt, e1, if_true, e2]
      exact ⟨trivial, trivial, e3⟩
    | inr y =>
      simp only [Tys.FitsAlt] at hf
      simp only [Tys.serAlt] at hr ⊢
      obtain ⟨e1, e2, e3⟩ := deserAlt_ok lt hlt ts ht.2 y hf s rest hs hr
      simp only [Tys.altIndex, Tys.deserAlt, e1, e2]
      exact ⟨trivial, rfl, e3⟩
end

end Maf
