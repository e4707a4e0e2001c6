import Verif.Model.Serialize
/-
C112: after a failed read, nothing more is decoded from the stream.
-/
namespace Maf

mutual
/-- A value of this type is decoded without decoding a pointer first: no pointer is one of its parts (elements of containers and alternatives of variants are not decoded before their
number or index). -/
def Ty.NoPtr : Ty → Prop
  | .ptr _ _ => False
  | .pair a b => a.NoPtr ∧ b.NoPtr
  | .tup ts => ts.NoPtrs
  | .num _ => True
  | .str _ => True
  | .seq _ => True
  | .set _ => True
  | .map _ _ => True
  | .var _ _ => True
def Tys.NoPtrs : Tys → Prop
  | .nil => True
  | .cons t ts => t.NoPtr ∧ ts.NoPtrs
end

/-- The stream has failed. -/
def IStream.Failed (s : IStream) : Prop := s.good = false ∧ s.fail = true

theorem read_failed {s : IStream} (h : s.Failed) (n : Nat) : s.read n = (none, s) := by
  obtain ⟨b, p, g, f, e⟩ := s
  obtain ⟨h1, h2⟩ := h
  simp only at h1 h2
  subst h1; subst h2
  rfl

theorem deserNum_failed {s : IStream} (h : s.Failed) (w : Nat) (old : Fin (256 ^ w)) : deserNum w old s = { ok := false, val := old, st := s } := by
  simp [deserNum, read_failed h, h.2]

mutual
theorem failed_keeps_aux (lt : Orders) : (t : Ty) → t.NoPtr → (old : t.Val) → (s : IStream) → s.Failed → t.deser lt old s = { ok := false, val := old, st := s }
  | .num w, _, old, s, h => by simp only [Ty.deser]; exact deserNum_failed h w old
  | .str cw, _, old, s, h => by simp [Ty.deser, deserStr, deserNum_failed h, h.2]
  | .seq t, _, old, s, h => by simp [Ty.deser, deserCont, deserNum_failed h]
  | .set t, _, old, s, h => by simp [Ty.deser, deserCont, deserNum_failed h]
  | .map k v, _, old, s, h => by simp [Ty.deser, deserCont, deserNum_failed h]
  | .pair a b, hp, old, s, h => by
    simp only [Ty.NoPtr] at hp
    simp [Ty.deser, deserPair, failed_keeps_aux lt a hp.1 old.1 s h]
  | .tup ts, hp, old, s, h => by
    simp only [Ty.NoPtr] at hp
    simp only [Ty.deser]
    exact failed_keeps_tuple lt ts hp false old s h
  | .var t ts, _, old, s, h => by simp [Ty.deser, deserNum_failed h]
theorem failed_keeps_tuple (lt : Orders) : (ts : Tys) → ts.NoPtrs → (b : Bool) → (old : ts.Tuple) → (s : IStream) → s.Failed → ts.deserTuple lt b old s = { ok := b, val := old, st := s }
  | .nil, _, b, old, s, h => by simp [Tys.deserTuple]
  | .cons t ts, hp, b, old, s, h => by
    simp only [Tys.NoPtrs] at hp
    simp [Tys.deserTuple, failed_keeps_aux lt t hp.1 old.1 s h, failed_keeps_tuple lt ts hp.2 b old.2 s h]
end

/-- Partial: from a stream that has failed, a value of any type without pointers is not decoded: `deserialize` returns false, and its target and the stream stay as they were. -/
theorem failed_keeps_partial (lt : Orders) (t : Ty) (ht : t.NoPtr) (old : t.Val) (s : IStream) (h : s.Failed) :
    (t.deser lt old s).ok = false ∧ (t.deser lt old s).val = old ∧ (t.deser lt old s).st = s := by
  rw [failed_keeps_aux lt t ht old s h]; exact ⟨rfl, rfl, rfl⟩

/-- Refuted for pointers: from a stream that has failed, every pointer is "decoded" successfully, and becomes null. -/
theorem failed_pointer_null (lt : Orders) (smart : Bool) (t : Ty) (old : (Ty.ptr smart t).Val) (s : IStream) (h : s.Failed) :
    ((Ty.ptr smart t).deser lt old s).ok = true ∧ ((Ty.ptr smart t).deser lt old s).val = none ∧ ((Ty.ptr smart t).deser lt old s).st = s := by
  simp [Ty.deser, read_failed h]

mutual
theorem failed_stays_aux (lt : Orders) : (t : Ty) → (old : t.Val) → (s : IStream) → s.Failed → (t.deser lt old s).st = s
  | .num w, old, s, h => by simp only [Ty.deser]; rw [deserNum_failed h w old]
  | .str cw, old, s, h => by simp [Ty.deser, deserStr, deserNum_failed h]
  | .ptr _ t, old, s, h => by simp [Ty.deser, read_failed h]
  | .seq t, old, s, h => by simp [Ty.deser, deserCont, deserNum_failed h]
  | .set t, old, s, h => by simp [Ty.deser, deserCont, deserNum_failed h]
  | .map k v, old, s, h => by simp [Ty.deser, deserCont, deserNum_failed h]
  | .pair a b, old, s, h => by
    simp only [Ty.deser, deserPair]
    have ha := failed_stays_aux lt a old.1 s h
    split
    · simp only [ha]; exact failed_stays_aux lt b old.2 s h
    · exact ha
  | .tup ts, old, s, h => by simp only [Ty.deser]; exact failed_stays_tuple lt ts false old s h
  | .var t ts, old, s, h => by simp [Ty.deser, deserNum_failed h]
theorem failed_stays_tuple (lt : Orders) : (ts : Tys) → (b : Bool) → (old : ts.Tuple) → (s : IStream) → s.Failed → (ts.deserTuple lt b old s).st = s
  | .nil, b, old, s, h => by simp [Tys.deserTuple]
  | .cons t ts, b, old, s, h => by
    simp only [Tys.deserTuple, failed_stays_aux lt t old.1 s h]
    exact failed_stays_tuple lt ts _ old.2 s h
end

/-- A stream that has failed stays as it is, whatever is decoded from it. -/
theorem failed_stays (lt : Orders) (t : Ty) (old : t.Val) (s : IStream) (h : s.Failed) : (t.deser lt old s).st = s := failed_stays_aux lt t old s h

/-- A failed read is noticed for good: the stream is good or has failed, and what decodes nothing has made it fail. -/
theorem read_good_or_failed {s : IStream} (h : (s.good = true ∧ s.fail = false) ∨ s.Failed) (n : Nat) :
    (((s.read n).1 ≠ none ∧ (s.read n).2.good = true ∧ (s.read n).2.fail = false) ∨ ((s.read n).1 = none ∧ (s.read n).2.Failed)) := by
  rcases h with ⟨h1, h2⟩ | h
  · unfold IStream.read
    rw [if_pos h1]
    split
    · right; exact ⟨rfl, rfl, rfl⟩
    · left; exact ⟨by simp, h1, h2⟩
  · right; rw [read_failed h]; exact ⟨rfl, h⟩

/-- A number that cannot be decoded keeps its value, and the stream has failed. -/
theorem number_kept (lt : Orders) (w : Nat) (old : Fin (256 ^ w)) (s : IStream) (hs : (s.good = true ∧ s.fail = false) ∨ s.Failed) (h : ((Ty.num w).deser lt old s).ok = false) :
    ((Ty.num w).deser lt old s).val = old ∧ ((Ty.num w).deser lt old s).st.Failed := by
  simp only [Ty.deser, deserNum] at h ⊢
  rcases read_good_or_failed hs w with ⟨-, -, h2⟩ | ⟨h1, h2⟩
  · rw [h2] at h; cases h
  · rw [h1]; exact ⟨rfl, h2⟩

/-- A variant, or a smart pointer, that cannot be decoded keeps its value. -/
theorem variant_kept (lt : Orders) (t : Ty) (ts : Tys) (old : (Ty.var t ts).Val) (s : IStream) (h : ((Ty.var t ts).deser lt old s).ok = false) : ((Ty.var t ts).deser lt old s).val = old := by
  simp only [Ty.deser] at h ⊢
  split at h
  · next hc =>
    rw [if_pos hc]
    split at h
    · split at h
      · cases h
      · simp_all
    · split at h
      · cases h
      · simp_all
  · next hc => rw [if_neg hc]

theorem smart_kept (lt : Orders) (t : Ty) (old : (Ty.ptr true t).Val) (s : IStream) (h : ((Ty.ptr true t).deser lt old s).ok = false) : ((Ty.ptr true t).deser lt old s).val = old := by
  simp only [Ty.deser] at h ⊢
  split at h
  · next b hb =>
    rw [hb] at *
    split at h
    · next hc =>
      split at h
      · cases h
      · next hn => simp [hc, hn]
    · cases h
  · cases h

/-! ### The hypotheses are met -/

/-- The third number of a record of which the last byte is missing. -/
def cutRecord : IStream := IStream.ofBytes [1, 0, 2, 0, 3]

example (lt : Orders) : ((Ty.tup (.cons (.num 2) (.cons (.num 2) (.cons (.num 2) .nil)))).deser lt (7, 7, 7, ()) cutRecord).val = (1, 2, 7, ()) ∧
    ((Ty.tup (.cons (.num 2) (.cons (.num 2) (.cons (.num 2) .nil)))).deser lt (7, 7, 7, ()) cutRecord).st.Failed := by
  exact ⟨by rfl, by rfl, by rfl⟩

example (lt : Orders) : let s := ((Ty.num 8).deser lt 5 cutRecord).st
    s.Failed ∧ ((Ty.str 1).deser lt [1] s).ok = false ∧ ((Ty.ptr true (.num 1)).deser lt (some 4) s).val = none ∧ ((Ty.ptr true (.num 1)).deser lt (some 4) s).ok = true := by
  exact ⟨⟨by rfl, by rfl⟩, by rfl, by rfl, by rfl⟩

end Maf
