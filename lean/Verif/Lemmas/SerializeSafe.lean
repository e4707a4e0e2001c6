import Verif.Lemmas.Serialize
/- Safety of decoding arbitrary bytes; truncated inputs; sizes. -/
namespace Maf

/-- How a stream can change by being read from. -/
structure Step (s s' : IStream) : Prop where
  buf : s'.buf = s.buf
  mono : s.pos ≤ s'.pos
  inside : s.pos ≤ s.buf.length → s'.pos ≤ s.buf.length
  failSticky : s.fail = true → s'.fail = true
  badStays : s.good = false → s'.good = false ∧ s'.pos = s.pos
  failBad : (s.fail = true → s.good = false) → s'.fail = true → s'.good = false

theorem Step.refl (s : IStream) : Step s s := ⟨rfl, Nat.le_refl _, id, id, fun h => ⟨h, rfl⟩, id⟩

theorem Step.trans {a b c : IStream} (h : Step a b) (h' : Step b c) : Step a c where
  buf := h'.buf.trans h.buf
  mono := Nat.le_trans h.mono h'.mono
  inside := fun hi => by have := h'.inside (by rw [h.buf]; exact h.inside hi); rwa [h.buf] at this
  failSticky := fun hf => h'.failSticky (h.failSticky hf)
  badStays := fun hg => by
    obtain ⟨h1, h2⟩ := h.badStays hg
    obtain ⟨h3, h4⟩ := h'.badStays h1
    exact ⟨h3, h4.trans h2⟩
  failBad := fun hg => h'.failBad (h.failBad hg)

theorem Step.dead {a b : IStream} (h : Step a b) (ha : a.Dead) : b.Dead :=
  ⟨(h.badStays ha.1).1, h.failSticky ha.2⟩

theorem read_step (s : IStream) (n : Nat) : Step s (s.read n).2 := by
  unfold IStream.read
  split
  · next hg =>
    split
    · exact ⟨rfl, Nat.le_refl _, id, fun _ => rfl, fun h => by simp [hg] at h, fun _ _ => rfl⟩
    · refine ⟨rfl, Nat.le_add_right _ _, fun _ => ?_, id, fun h => by simp [hg] at h, fun h h' => ?_⟩
      · show s.pos + n ≤ s.buf.length; omega
      · exact h h'
  · next hg =>
    exact ⟨rfl, Nat.le_refl _, id, fun _ => rfl, fun _ => ⟨rfl, rfl⟩, fun _ _ => rfl⟩

theorem read_some {s : IStream} {n : Nat} {bs : Bytes} (h : (s.read n).1 = some bs) :
    s.pos + n ≤ s.buf.length ∧ bs = (s.buf.drop s.pos).take n ∧ (s.read n).2.pos = s.pos + n := by
  unfold IStream.read at h ⊢
  split at h
  · next hg =>
    split at h
    · simp at h
    · next hle =>
      simp only [Option.some.injEq] at h
      refine ⟨by omega, h.symm, ?_⟩
      simp [hg, hle]
  · simp at h

theorem read_none_dead {s : IStream} {n : Nat} (h : (s.read n).1 = none) : (s.read n).2.Dead := by
  unfold IStream.read at h ⊢
  split
  · next hg =>
    split
    · exact ⟨rfl, rfl⟩
    · next hle => simp [hg, hle] at h
  · exact ⟨rfl, rfl⟩

theorem deserNum_step (w : Nat) (old : Fin (256 ^ w)) (s : IStream) :
    Step s (deserNum w old s).st := by
  simp only [deserNum]; exact read_step s w

theorem deserStr_step (cw : Nat) (old : List (Fin (256 ^ cw))) (s : IStream) :
    Step s (deserStr cw old s).st := by
  simp only [deserStr]
  have h := deserNum_step 4 (zeroNum 4) s
  split
  · split
    · exact h.trans (read_step _ _)
    · exact h
  · exact h

theorem deserLoop_step {α β : Type} (elem : IStream → DR α) (push : List β → α → List β)
    (h : ∀ s, Step s (elem s).st) (n : Nat) (b : Bool) (c : List β) (s : IStream) :
    Step s (deserLoop elem push n b c s).st := by
  induction n generalizing b c s with
  | zero => exact Step.refl s
  | succ n ih =>
    simp only [deserLoop]
    split
    · exact (h s).trans (ih _ _ _)
    · exact h s

theorem deserCont_step {α β : Type} (elem : IStream → DR α) (push : List β → α → List β)
    (h : ∀ s, Step s (elem s).st) (c : List β) (s : IStream) :
    Step s (deserCont elem push c s).st := by
  simp only [deserCont]
  have hn := deserNum_step 4 (zeroNum 4) s
  split
  · exact hn.trans (deserLoop_step elem push h _ _ _ _)
  · exact hn

theorem deserPair_step {α β : Type} (fa : α → IStream → DR α) (fb : β → IStream → DR β)
    (ha : ∀ o s, Step s (fa o s).st) (hb : ∀ o s, Step s (fb o s).st) (old : α × β) (s : IStream) :
    Step s (deserPair fa fb old s).st := by
  simp only [deserPair]
  split
  · exact (ha _ _).trans (hb _ _)
  · exact ha _ _

mutual
theorem deser_step (lt : Orders) : (t : Ty) → (old : t.Val) → (s : IStream) →
    Step s (t.deser lt old s).st
  | .num w, old, s => by simp only [Ty.deser]; exact deserNum_step w old s
  | .str cw, old, s => by simp only [Ty.deser]; exact deserStr_step cw old s
  | .ptr sm t, old, s => by
    have h1 := read_step s 1
    have h2 := h1.trans (deser_step lt t t.dflt (s.read 1).2)
    simp only [Ty.deser]
    repeat' split
    all_goals first | exact h2 | exact h1
  | .seq t, old, s => by
    simp only [Ty.deser]; exact deserCont_step _ _ (fun s => deser_step lt t t.dflt s) _ _
  | .set t, old, s => by
    simp only [Ty.deser]; exact deserCont_step _ _ (fun s => deser_step lt t t.dflt s) _ _
  | .map k v, old, s => by
    simp only [Ty.deser]
    exact deserCont_step _ _ (fun s => deserPair_step _ _ (fun o s => deser_step lt k o s)
      (fun o s => deser_step lt v o s) _ _) _ _
  | .pair a b, old, s => by
    simp only [Ty.deser]
    exact deserPair_step _ _ (fun o s => deser_step lt a o s) (fun o s => deser_step lt b o s) _ _
  | .tup ts, old, s => by simp only [Ty.deser]; exact deserTuple_step lt ts false old s
  | .var t ts, old, s => by
    have hn := deserNum_step 4 (zeroNum 4) s
    have h0 := hn.trans (deser_step lt t t.dflt (deserNum 4 (zeroNum 4) s).st)
    have h1 := fun i => hn.trans (deserAlt_step lt ts i (deserNum 4 (zeroNum 4) s).st)
    simp only [Ty.deser]
    repeat' split
    all_goals first | exact h0 | exact h1 _ | exact hn
theorem deserTuple_step (lt : Orders) : (ts : Tys) → (b : Bool) → (old : ts.Tuple) →
    (s : IStream) → Step s (ts.deserTuple lt b old s).st
  | .nil, b, old, s => by simp only [Tys.deserTuple]; exact Step.refl s
  | .cons t ts, b, old, s => by
    simp only [Tys.deserTuple]
    exact (deser_step lt t old.1 s).trans (deserTuple_step lt ts _ old.2 _)
theorem deserAlt_step (lt : Orders) : (ts : Tys) → (i : Nat) → (s : IStream) →
    Step s (ts.deserAlt lt i s).st
  | .nil, i, s => by simp only [Tys.deserAlt]; exact Step.refl s
  | .cons t ts, 0, s => by
    have h := deser_step lt t t.dflt s
    simp only [Tys.deserAlt]
    split <;> exact h
  | .cons t ts, i + 1, s => by
    simp only [Tys.deserAlt]
    exact deserAlt_step lt ts i s
end

/-- Reading a proper prefix `p` of `enc` leaves the stream dead. -/
def CutDead {α : Type} (f : IStream → DR α) (enc : Bytes) : Prop :=
  ∀ s q, s.Usable → enc = s.remaining ++ q → q ≠ [] → (f s).st.Dead

theorem split_cut {p q a b : Bytes} (h : a ++ b = p ++ q) (_ : q ≠ []) :
    (∃ a', a' ≠ [] ∧ a = p ++ a') ∨ (∃ p', p = a ++ p' ∧ b = p' ++ q) := by
  rcases List.append_eq_append_iff.mp h with ⟨c, h1, h2⟩ | ⟨c, h1, h2⟩
  · exact Or.inr ⟨c, h1, h2⟩
  · by_cases hc : c = []
    · subst hc
      exact Or.inr ⟨[], by simpa using h1.symm, by simpa using h2.symm⟩
    · exact Or.inl ⟨c, hc, h1⟩

theorem cut_length {p q : Bytes} {n : Nat} (h : (p ++ q).length = n) (hq : q ≠ []) : p.length < n := by
  have := List.length_pos_iff.mpr hq
  simp at h; omega

theorem deserNum_cut {w : Nat} {n : Nat} {old : Fin (256 ^ w)} : CutDead (deserNum w old) (leBytes w n) := by
  intro s q hs he hq
  have hl := cut_length (he ▸ leBytes_length w n) hq
  simp only [deserNum]
  exact (read_short hs hl).2

theorem deserNum_cut_ok {w : Nat} {old : Fin (256 ^ w)} {s : IStream} (h : (deserNum w old s).st.Dead) :
    (deserNum w old s).ok = false := by
  simp only [deserNum] at *
  simp [h.2]

theorem deserLoop_cut {α β : Type} (elem : IStream → DR α) (push : List β → α → List β)
    (enc : α → Bytes) (xs : List α) (hstep : ∀ s, Step s (elem s).st)
    (h : ∀ x ∈ xs, ReadsBack elem (enc x) x) (hc : ∀ x ∈ xs, CutDead elem (enc x))
    (c : List β) : CutDead (deserLoop elem push xs.length true c) (xs.flatMap enc) := by
  induction xs generalizing c with
  | nil => intro s q hs he hq; simp at he; exact absurd he.2 hq
  | cons x xs ih =>
    intro s q hs he hq
    simp only [List.flatMap_cons] at he
    simp only [List.length_cons, deserLoop, Bool.true_or, if_true]
    rcases split_cut he hq with ⟨a', ha', h1⟩ | ⟨p', h1, h2⟩
    · exact (deserLoop_step elem push hstep _ _ _ _).dead (hc x (by simp) s a' hs h1 ha')
    · obtain ⟨_, _, e3⟩ := h x (by simp) s p' hs h1
      refine ih (fun y hy => h y (by simp [hy])) (fun y hy => hc y (by simp [hy])) _ _ q e3.usable ?_ hq
      rw [e3.remaining h1]; exact h2

theorem deserCont_cut {α β : Type} (elem : IStream → DR α) (push : List β → α → List β)
    (enc : α → Bytes) (xs : List α) (hlen : xs.length < 2 ^ 32) (hstep : ∀ s, Step s (elem s).st)
    (h : ∀ x ∈ xs, ReadsBack elem (enc x) x) (hc : ∀ x ∈ xs, CutDead elem (enc x))
    (c : List β) : CutDead (deserCont elem push c) (leBytes 4 xs.length ++ xs.flatMap enc) := by
  intro s q hs he hq
  rcases split_cut he hq with ⟨a', ha', h1⟩ | ⟨p', h1, h2⟩
  · have hd := deserNum_cut (old := zeroNum 4) s a' hs h1 ha'
    simp only [deserCont, deserNum_cut_ok hd]
    exact hd
  · obtain ⟨n1, n2, n3⟩ := deserSize_ok hlen hs h1
    have n3' : Adv s (deserNum 4 (zeroNum 4) s).st (leBytes 4 xs.length).length := by
      rw [leBytes_length]; exact n3
    have hpos : xs.length > 0 := by
      cases xs with
      | nil => simp at h2; exact absurd h2.2 hq
      | cons => simp
    simp only [deserCont, n1, n2, Bool.false_or, Bool.true_and, hpos, decide_true, if_true]
    refine deserLoop_cut elem push enc xs hstep h hc c _ q n3.usable ?_ hq
    rw [n3'.remaining h1]; exact h2

theorem deserPair_cut {α β : Type} (fa : α → IStream → DR α) (fb : β → IStream → DR β)
    (oa : α) (ob : β) (ea eb : Bytes) (a : α) (ha : ReadsBack (fa oa) ea a)
    (hca : CutDead (fa oa) ea) (hcb : CutDead (fb ob) eb)
    (hstep : ∀ s, Step s (fb ob s).st) : CutDead (deserPair fa fb (oa, ob)) (ea ++ eb) := by
  intro s q hs he hq
  rcases split_cut he hq with ⟨a', ha', h1⟩ | ⟨p', h1, h2⟩
  · have hd := hca s a' hs h1 ha'
    simp only [deserPair]
    split
    · exact (hstep _).dead hd
    · exact hd
  · obtain ⟨e1, _, e3⟩ := ha s p' hs h1
    simp only [deserPair, e1, Bool.false_or, if_true]
    refine hcb _ q e3.usable ?_ hq
    rw [e3.remaining h1]; exact h2

mutual
theorem deser_cut (lt : Orders) (hlt : lt.Asymm) : (t : Ty) → t.Supported → (v : t.Val) →
    t.Fits lt v → (old : t.Val) → t.Fresh old → CutDead (t.deser lt old) (t.ser v)
  | .num w, _, v, _, old, _ => by
    intro s q hs he hq
    simp only [Ty.deser, Ty.ser] at *
    exact deserNum_cut s q hs he hq
  | .str cw, _, v, hf, old, ho => by
    intro s q hs he hq
    simp only [Ty.deser, Ty.ser, Ty.Fits] at *
    rcases split_cut he hq with ⟨a', ha', h1⟩ | ⟨p', h1, h2⟩
    · have hd := deserNum_cut (old := zeroNum 4) s a' hs h1 ha'
      simp only [deserStr, deserNum_cut_ok hd]
      exact hd
    · obtain ⟨n1, n2, n3⟩ := deserSize_ok hf hs h1
      have n3' : Adv s (deserNum 4 (zeroNum 4) s).st (leBytes 4 v.length).length := by
        rw [leBytes_length]; exact n3
      have hpos : v.length > 0 := by
        cases v with
        | nil => simp [charsBytes] at h2; exact absurd h2.2 hq
        | cons => simp
      simp only [deserStr, n1, n2, if_true, hpos]
      refine (read_short n3.usable ?_).2
      rw [n3'.remaining h1]
      exact cut_length (h2 ▸ charsBytes_length v) hq
  | .ptr sm t, ht, v, hf, old, ho => by
    intro s q hs he hq
    have hcase : (s.remaining = [] ∧ q = (Ty.ptr sm t).ser v) ∨
        (∃ x p', v = some x ∧ s.remaining = [1] ++ p' ∧ t.ser x = p' ++ q) := by
      cases v with
      | none =>
        simp only [Ty.ser] at he ⊢
        left
        cases hr : s.remaining with
        | nil => rw [hr] at he; simp at he; exact ⟨rfl, he.symm⟩
        | cons b bs => rw [hr] at he; simp at he; exact absurd he.2.2 hq
      | some x =>
        simp only [Ty.ser] at he ⊢
        cases hr : s.remaining with
        | nil => rw [hr] at he; simp at he; exact Or.inl ⟨rfl, he.symm⟩
        | cons b bs =>
          rw [hr] at he; simp at he
          exact Or.inr ⟨x, bs, rfl, by simp [he.1], he.2⟩
    rcases hcase with ⟨h1, _⟩ | ⟨x, p', hv, h1, h2⟩
    · obtain ⟨r1, r2⟩ := read_short hs (n := 1) (by rw [h1]; simp)
      simp only [Ty.deser, r1]
      exact r2
    · subst hv
      obtain ⟨r1, r2⟩ := read_ok hs h1 (n := 1) rfl
      have hd := deser_cut lt hlt t (by simpa [Ty.Supported] using ht) x
        (by simp only [Ty.Fits] at hf; exact hf x rfl) _ (dflt_fresh t) _ q r2.usable
        (by rw [Adv.remaining (bs := [1]) r2 h1]; exact h2) hq
      have h10 : (1 : UInt8) ≠ 0 := by decide
      simp only [Ty.deser, r1, ne_eq, h10, not_false_eq_true, if_true]
      split <;> exact hd
  | .seq t, ht, v, hf, old, ho => by
    intro s q hs he hq
    simp only [Ty.Fits] at hf
    have ht' : t.Supported := by simpa [Ty.Supported] using ht
    simp only [Ty.deser, Ty.dflt, Ty.ser] at *
    exact deserCont_cut _ _ t.ser v hf.1 (fun s => deser_step lt t t.dflt s)
      (fun x hx => deser_ok lt hlt t ht' x (hf.2 x hx) _ (dflt_fresh t))
      (fun x hx => deser_cut lt hlt t ht' x (hf.2 x hx) _ (dflt_fresh t)) _ s q hs he hq
  | .set t, ht, v, hf, old, ho => by
    intro s q hs he hq
    simp only [Ty.Fits] at hf
    have ht' : t.Supported := by simpa [Ty.Supported] using ht
    simp only [Ty.deser, Ty.dflt, Ty.ser] at *
    exact deserCont_cut _ _ t.ser v hf.1 (fun s => deser_step lt t t.dflt s)
      (fun x hx => deser_ok lt hlt t ht' x (hf.2.1 x hx) _ (dflt_fresh t))
      (fun x hx => deser_cut lt hlt t ht' x (hf.2.1 x hx) _ (dflt_fresh t)) _ s q hs he hq
  | .map k w, ht, v, hf, old, ho => by
    intro s q hs he hq
    simp only [Ty.Fits] at hf
    simp only [Ty.Supported] at ht
    simp only [Ty.deser, Ty.dflt, Ty.ser] at *
    exact deserCont_cut _ _ (fun x => k.ser x.1 ++ w.ser x.2) v hf.1
      (fun s => deserPair_step _ _ (fun o s => deser_step lt k o s) (fun o s => deser_step lt w o s) _ _)
      (fun x hx => deserPair_ok _ _ _ _ _ _ _ _ (deser_ok lt hlt k ht.1 x.1 (hf.2.1 x hx).1 _ (dflt_fresh k))
        (deser_ok lt hlt w ht.2 x.2 (hf.2.1 x hx).2 _ (dflt_fresh w)))
      (fun x hx => deserPair_cut _ _ _ _ _ _ _ (deser_ok lt hlt k ht.1 x.1 (hf.2.1 x hx).1 _ (dflt_fresh k))
        (deser_cut lt hlt k ht.1 x.1 (hf.2.1 x hx).1 _ (dflt_fresh k)) (deser_cut lt hlt w ht.2 x.2 (hf.2.1 x hx).2 _ (dflt_fresh w))
        (fun s => deser_step lt w w.dflt s)) _ s q hs he hq
  | .pair a b, ht, v, hf, old, ho => by
    simp only [Ty.Fresh] at ho
    intro s q hs he hq
    simp only [Ty.Fits] at hf
    simp only [Ty.Supported] at ht
    simp only [Ty.deser, Ty.dflt, Ty.ser] at *
    exact deserPair_cut _ _ _ _ _ _ _ (deser_ok lt hlt a ht.1 v.1 hf.1 _ ho.1)
        (deser_cut lt hlt a ht.1 v.1 hf.1 _ ho.1) (deser_cut lt hlt b ht.2 v.2 hf.2 _ ho.2)
        (fun s => deser_step lt b _ s) s q hs he hq
  | .tup ts, ht, v, hf, old, ho => by
    simp only [Ty.Fresh] at ho
    intro s q hs he hq
    simp only [Ty.Fits] at hf
    simp only [Ty.Supported] at ht
    simp only [Ty.deser, Ty.dflt, Ty.ser] at *
    exact deserTuple_cut lt hlt ts ht.2 v hf false old ho s q hs he hq
  | .var t ts, ht, v, hf, old, ho => by
    intro s q hs he hq
    simp only [Ty.Supported] at ht
    cases v with
    | inl x =>
      simp only [Ty.Fits] at hf
      simp only [Ty.ser] at he
      rcases split_cut he hq with ⟨a', ha', h1⟩ | ⟨p', h1, h2⟩
      · have hd := deserNum_cut (old := zeroNum 4) s a' hs h1 ha'
        simp only [Ty.deser, deserNum_cut_ok hd]
        exact hd
      · obtain ⟨n1, n2, n3⟩ := deserSize_ok (n := 0) (by decide) hs h1
        have n3' : Adv s (deserNum 4 (zeroNum 4) s).st (leBytes 4 0).length := by
          rw [leBytes_length]; exact n3
        have hd := deser_cut lt hlt t ht.2.1 x hf _ (dflt_fresh t) _ q n3.usable (by rw [n3'.remaining h1]; exact h2) hq
        have hlt0 : 0 < ts.length + 1 := by omega
        simp only [Ty.deser, n1, n2, hlt0, decide_true, Bool.and_self, if_true]
        split <;> exact hd
    | inr a =>
      simp only [Ty.Fits] at hf
      simp only [Ty.ser] at he
      have hidx := altIndex_lt ts a
      rcases split_cut he hq with ⟨a', ha', h1⟩ | ⟨p', h1, h2⟩
      · have hd := deserNum_cut (old := zeroNum 4) s a' hs h1 ha'
        simp only [Ty.deser, deserNum_cut_ok hd]
        exact hd
      · obtain ⟨n1, n2, n3⟩ := deserSize_ok (n := ts.altIndex a + 1) (by omega) hs h1
        have n3' : Adv s (deserNum 4 (zeroNum 4) s).st (leBytes 4 (ts.altIndex a + 1)).length := by
          rw [leBytes_length]; exact n3
        have hd := deserAlt_cut lt hlt ts ht.2.2 a hf _ q n3.usable
          (by rw [n3'.remaining h1]; exact h2) hq
        have hlt0 : ts.altIndex a + 1 < ts.length + 1 := by omega
        simp only [Ty.deser, n1, n2, hlt0, decide_true, Bool.and_self, if_true]
        split <;> exact hd
theorem deserTuple_cut (lt : Orders) (hlt : lt.Asymm) : (ts : Tys) → ts.AllSupported →
    (v : ts.Tuple) → ts.FitsTuple lt v → (b : Bool) →
    (old : ts.Tuple) → ts.FreshTuple old → CutDead (ts.deserTuple lt b old) (ts.serTuple v)
  | .nil, _, v, _, b, _, _ => by
    intro s q hs he hq
    simp [Tys.serTuple] at he
    exact absurd he.2 hq
  | .cons t ts, ht, v, hf, b, old, ho => by
    intro s q hs he hq
    simp only [Tys.AllSupported] at ht
    simp only [Tys.FitsTuple] at hf
    simp only [Tys.FreshTuple] at ho
    simp only [Tys.serTuple] at he
    simp only [Tys.deserTuple, Tys.dfltTuple]
    rcases split_cut he hq with ⟨a', ha', h1⟩ | ⟨p', h1, h2⟩
    · exact (deserTuple_step lt ts _ _ _).dead (deser_cut lt hlt t ht.1 v.1 hf.1 _ ho.1 s a' hs h1 ha')
    · obtain ⟨_, _, e3⟩ := deser_ok lt hlt t ht.1 v.1 hf.1 _ ho.1 s p' hs h1
      refine deserTuple_cut lt hlt ts ht.2 v.2 hf.2 _ _ ho.2 _ q e3.usable ?_ hq
      rw [e3.remaining h1]; exact h2
theorem deserAlt_cut (lt : Orders) (hlt : lt.Asymm) : (ts : Tys) → ts.AllSupported →
    (a : ts.Alt) → ts.FitsAlt lt a → CutDead (ts.deserAlt lt (ts.altIndex a)) (ts.serAlt a)
  | .nil, _, a, _ => a.elim
  | .cons t ts, ht, a, hf => by
    intro s q hs he hq
    simp only [Tys.AllSupported] at ht
    cases a with
    | inl x =>
      simp only [Tys.FitsAlt] at hf
      simp only [Tys.serAlt] at he
      have hd := deser_cut lt hlt t ht.1 x hf _ (dflt_fresh t) s q hs he hq
      simp only [Tys.altIndex, Tys.deserAlt]
      split <;> exact hd
    | inr y =>
      simp only [Tys.FitsAlt] at hf
      simp only [Tys.serAlt] at he
      simp only [Tys.altIndex, Tys.deserAlt]
      exact deserAlt_cut lt hlt ts ht.2 y hf s q hs he hq
end

/-! ### Sizes -/

theorem u32_add (a b : Nat) : u32 (u32 a + u32 b) = u32 (a + b) := by simp [u32, Nat.add_mod]
theorem u32_add_l (a b : Nat) : u32 (u32 a + b) = u32 (a + b) := by simp [u32]
theorem u32_add_r (a b : Nat) : u32 (a + u32 b) = u32 (a + b) := by simp [u32]
theorem u32_u32 (a : Nat) : u32 (u32 a) = u32 a := by simp [u32]

theorem foldl_none {α : Type} (f : Nat → α → Option Nat) (xs : List α) :
    xs.foldl (fun acc x => acc.bind fun a => f a x) none = none := by
  induction xs with
  | nil => rfl
  | cons x xs ih => simpa using ih

theorem foldl_size {α : Type} (f : Nat → α → Option Nat) (enc : α → Bytes)
    (h : ∀ x a n, f (u32 a) x = some n → n = u32 (a + (enc x).length)) (xs : List α) (a n : Nat)
    (hn : xs.foldl (fun acc x => acc.bind fun a => f a x) (some (u32 a)) = some n) :
    n = u32 (a + (xs.flatMap enc).length) := by
  induction xs generalizing a with
  | nil => simp at hn; simp [← hn]
  | cons x xs ih =>
    simp only [List.foldl_cons, Option.bind_some] at hn
    cases hf : f (u32 a) x with
    | none => rw [hf, foldl_none] at hn; simp at hn
    | some m =>
      have hm := h x a m hf
      rw [hf, hm] at hn
      have := ih _ hn
      simp only [List.flatMap_cons, List.length_append]
      rw [this]; congr 1; omega

mutual
theorem size_ok : (t : Ty) → (v : t.Val) → (n : Nat) → t.size v = some n → n = u32 (t.ser v).length
  | .num w, v, n, h => by
    simp only [Ty.size, Option.some.injEq] at h
    simp only [Ty.ser, leBytes_length, h]
  | .str cw, v, n, h => by
    simp only [Ty.size, Option.some.injEq] at h
    simp only [Ty.ser, List.length_append, leBytes_length, charsBytes_length, ← h, u32_add_r]
  | .ptr sm t, none, n, h => by
    simp only [Ty.size, Option.some.injEq] at h
    simp [Ty.ser, ← h, u32]
  | .ptr sm t, some x, n, h => by
    simp only [Ty.size, Option.map_eq_some_iff] at h
    obtain ⟨m, h1, h2⟩ := h
    have := size_ok t x m h1
    simp only [Ty.ser, List.length_cons]
    rw [← h2, this, u32_add_r, Nat.add_comm]
  | .seq t, v, n, h => by
    simp only [Ty.size, Option.map_eq_some_iff] at h
    obtain ⟨m, h1, h2⟩ := h
    have := foldl_size (fun a x => (t.size x).map fun n => u32 (a + n)) t.ser (by
      intro x a k hk
      simp only [Option.map_eq_some_iff] at hk
      obtain ⟨j, hj, hk⟩ := hk
      rw [← hk, size_ok t x j hj, u32_add]) v 0 m h1
    simp only [Ty.ser, List.length_append, leBytes_length]
    rw [← h2, this, u32_add_r, Nat.zero_add]
  | .set t, v, n, h => by
    simp only [Ty.size, Option.map_eq_some_iff] at h
    obtain ⟨m, h1, h2⟩ := h
    have := foldl_size (fun a x => (t.size x).map fun n => u32 (a + n)) t.ser (by
      intro x a k hk
      simp only [Option.map_eq_some_iff] at hk
      obtain ⟨j, hj, hk⟩ := hk
      rw [← hk, size_ok t x j hj, u32_add]) v 0 m h1
    simp only [Ty.ser, List.length_append, leBytes_length]
    rw [← h2, this, u32_add_r, Nat.zero_add]
  | .map kt w, v, n, h => by
    simp only [Ty.size, Option.map_eq_some_iff] at h
    obtain ⟨m, h1, h2⟩ := h
    have := foldl_size (fun a x => (kt.size x.1).bind fun n => (w.size x.2).map
        fun m => u32 (a + u32 (n + m))) (fun x => kt.ser x.1 ++ w.ser x.2) (by
      intro x a k hk
      simp only [Option.bind_eq_some_iff, Option.map_eq_some_iff] at hk
      obtain ⟨j, hj, i, hi, hk⟩ := hk
      rw [← hk, size_ok kt x.1 j hj, size_ok w x.2 i hi, List.length_append, u32_add, ← u32_add_r a (u32 _ + u32 _),
        u32_add, u32_add_r]) v 0 m h1
    simp only [Ty.ser, List.length_append, leBytes_length]
    rw [← h2, this, u32_add_r, Nat.zero_add]
  | .pair a b, v, n, h => by
    simp only [Ty.size, Option.bind_eq_some_iff, Option.map_eq_some_iff] at h
    obtain ⟨j, hj, i, hi, hk⟩ := h
    simp only [Ty.ser, List.length_append]
    rw [← hk, size_ok a v.1 j hj, size_ok b v.2 i hi, u32_add]
  | .tup ts, v, n, h => by
    simp only [Ty.size] at h
    have := sizeTuple_ok ts 0 v n h
    simpa [Ty.ser] using this
theorem sizeTuple_ok : (ts : Tys) → (acc : Nat) → (v : ts.Tuple) → (n : Nat) →
    ts.sizeTuple (u32 acc) v = some n → n = u32 (acc + (ts.serTuple v).length)
  | .nil, acc, v, n, h => by
    simp only [Tys.sizeTuple, Option.some.injEq] at h
    simp [Tys.serTuple, ← h]
  | .cons t ts, acc, v, n, h => by
    simp only [Tys.sizeTuple, Option.bind_eq_some_iff] at h
    obtain ⟨j, hj, h⟩ := h
    rw [size_ok t v.1 j hj, u32_add] at h
    have := sizeTuple_ok ts _ v.2 n h
    simp only [Tys.serTuple, List.length_append]
    rw [this]; congr 1; omega
end

/-! ### Progress -/

theorem read_progress {s : IStream} {n : Nat} (h : (s.read n).2.fail = false) :
    (s.read n).2.pos = s.pos + n := by
  cases hr : (s.read n).1 with
  | none => have := (read_none_dead hr).2; simp [this] at h
  | some bs => exact (read_some hr).2.2

theorem nofail_back {s s' : IStream} (h : Step s s') (hf : s'.fail = false) : s.fail = false := by
  cases hs : s.fail with
  | false => rfl
  | true => have := h.failSticky hs; simp [this] at hf

theorem deserNum_progress {w : Nat} {old : Fin (256 ^ w)} {s : IStream}
    (h : (deserNum w old s).st.fail = false) : (deserNum w old s).st.pos = s.pos + w := by
  simp only [deserNum] at *
  exact read_progress h

theorem progress_trans {s s1 s2 : IStream} {n : Nat} (h1 : s1.fail = false → s1.pos = s.pos + n)
    (hn : 0 < n) (h2 : Step s1 s2) (hf : s2.fail = false) : s.pos < s2.pos := by
  have := h1 (nofail_back h2 hf)
  have := h2.mono
  omega

mutual
theorem deser_progress (lt : Orders) : (t : Ty) → t.Supported → (old : t.Val) → (s : IStream) →
    (t.deser lt old s).st.fail = false → s.pos < (t.deser lt old s).st.pos
  | .num w, ht, old, s, h => by
    simp only [Ty.deser, Ty.Supported] at *
    have := deserNum_progress h
    omega
  | .str cw, _, old, s, h => by
    simp only [Ty.deser] at *
    refine progress_trans (n := 4) (s1 := (deserNum 4 (zeroNum 4) s).st) deserNum_progress
      (by decide) ?_ h
    simp only [deserStr]
    repeat' split
    all_goals first | exact Step.refl _ | exact read_step _ _
  | .ptr sm t, _, old, s, h => by
    refine progress_trans (n := 1) (s1 := (s.read 1).2) read_progress (by decide) ?_ h
    simp only [Ty.deser]
    repeat' split
    all_goals first | exact Step.refl _ | exact deser_step _ _ _ _
  | .seq t, _, old, s, h => by
    refine progress_trans (n := 4) (s1 := (deserNum 4 (zeroNum 4) s).st) deserNum_progress
      (by decide) ?_ h
    simp only [Ty.deser, deserCont]
    split
    · exact deserLoop_step _ _ (fun s => deser_step lt t t.dflt s) _ _ _ _
    · exact Step.refl _
  | .set t, _, old, s, h => by
    refine progress_trans (n := 4) (s1 := (deserNum 4 (zeroNum 4) s).st) deserNum_progress
      (by decide) ?_ h
    simp only [Ty.deser, deserCont]
    split
    · exact deserLoop_step _ _ (fun s => deser_step lt t t.dflt s) _ _ _ _
    · exact Step.refl _
  | .map k v, _, old, s, h => by
    refine progress_trans (n := 4) (s1 := (deserNum 4 (zeroNum 4) s).st) deserNum_progress
      (by decide) ?_ h
    simp only [Ty.deser, deserCont]
    split
    · exact deserLoop_step _ _ (fun s => deserPair_step _ _ (fun o s => deser_step lt k o s)
        (fun o s => deser_step lt v o s) _ _) _ _ _ _
    · exact Step.refl _
  | .pair a b, ht, old, s, h => by
    simp only [Ty.deser, Ty.Supported] at *
    have hstep : Step (a.deser lt old.1 s).st
        (deserPair (fun o s => a.deser lt o s) (fun o s => b.deser lt o s) old s).st := by
      simp only [deserPair]
      split
      · exact deser_step lt b _ _
      · exact Step.refl _
    have := deser_progress lt a ht.1 old.1 s (nofail_back hstep h)
    have := hstep.mono
    omega
  | .tup ts, ht, old, s, h => by
    simp only [Ty.Supported] at ht
    simp only [Ty.deser] at *
    exact deserTuple_progress lt ts ht.2 ht.1 false old s h
  | .var t ts, _, old, s, h => by
    refine progress_trans (n := 4) (s1 := (deserNum 4 (zeroNum 4) s).st) deserNum_progress
      (by decide) ?_ h
    simp only [Ty.deser]
    repeat' split
    all_goals first | exact Step.refl _ | exact deser_step _ _ _ _ | exact deserAlt_step _ _ _ _
theorem deserTuple_progress (lt : Orders) : (ts : Tys) → ts.AllSupported → ts ≠ .nil → (b : Bool) →
    (old : ts.Tuple) → (s : IStream) →
    (ts.deserTuple lt b old s).st.fail = false → s.pos < (ts.deserTuple lt b old s).st.pos
  | .nil, _, hne, _, _, _, _ => absurd rfl hne
  | .cons t ts, ht, _, b, old, s, h => by
    simp only [Tys.AllSupported] at ht
    simp only [Tys.deserTuple] at *
    have hstep := deserTuple_step lt ts (b || (t.deser lt old.1 s).ok) old.2 (t.deser lt old.1 s).st
    have := deser_progress lt t ht.1 old.1 s (nofail_back hstep h)
    have := hstep.mono
    omega
end

theorem deserLoop_bound {α β : Type} (elem : IStream → DR α) (push : List β → α → List β)
    (hstep : ∀ s, Step s (elem s).st)
    (hp : ∀ s, (elem s).st.fail = false → s.pos < (elem s).st.pos)
    (hl : ∀ c x, (push c x).length ≤ c.length + 1) (n : Nat) (b : Bool) (c : List β) (s : IStream)
    (h : (deserLoop elem push n b c s).st.fail = false) :
    s.pos + (deserLoop elem push n b c s).val.length ≤
      c.length + (deserLoop elem push n b c s).st.pos := by
  induction n generalizing b c s with
  | zero => simp only [deserLoop] at *; omega
  | succ n ih =>
    simp only [deserLoop] at *
    split at h
    · next hb =>
      simp only [hb, if_true] at *
      have h1 := ih _ _ _ h
      have h2 := hp s (nofail_back (deserLoop_step elem push hstep _ _ _ _) h)
      have h3 := hl c (elem s).val
      omega
    · next hb =>
      have h2 := (hstep s).mono
      simp only [hb]
      simp only [Bool.false_eq_true, if_false]
      omega

theorem deserCont_bound {α β : Type} (elem : IStream → DR α) (push : List β → α → List β)
    (hstep : ∀ s, Step s (elem s).st)
    (hp : ∀ s, (elem s).st.fail = false → s.pos < (elem s).st.pos)
    (hl : ∀ c x, (push c x).length ≤ c.length + 1) (c : List β) (s : IStream)
    (h : (deserCont elem push c s).st.fail = false) :
    s.pos + (deserCont elem push c s).val.length ≤
      c.length + (deserCont elem push c s).st.pos := by
  have hn := (deserNum_step 4 (zeroNum 4) s).mono
  simp only [deserCont] at *
  split at h
  · next hb =>
    have := deserLoop_bound elem push hstep hp hl _ _ _ _ h
    simp only [hb, if_true]
    omega
  · next hb =>
    simp only [hb]
    simp only [Bool.false_eq_true, if_false]
    omega

theorem insertBy_length {α : Type} (lt : α → α → Bool) (x : α) (ys : List α) :
    (insertBy lt x ys).length ≤ ys.length + 1 := by
  induction ys with
  | nil => simp [insertBy]
  | cons y ys ih =>
    simp only [insertBy]
    split
    · simp
    · split
      · simp; omega
      · simp

end Maf
