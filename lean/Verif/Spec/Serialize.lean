import Verif.Model.Serialize
/-
Vocabulary for stating the serialization properties: which types are supported
and which values fit the wire format. Nothing here refers to how bytes are
written or read.
-/
namespace Maf

mutual
/-- Supported types: no zero-size numbers or characters, no empty tuple/struct
(`deserialize` of one returns false, see `empty_tuple_never_succeeds`), at most 20
variant alternatives (the static_assert of `VariantSerializer.h:14`). -/
def Ty.Supported : Ty → Prop
  | .num w => 0 < w
  | .str cw => 0 < cw
  | .ptr _ t => t.Supported
  | .seq t => t.Supported
  | .set t => t.Supported
  | .map k v => k.Supported ∧ v.Supported
  | .pair a b => a.Supported ∧ b.Supported
  | .tup ts => ts ≠ .nil ∧ ts.AllSupported
  | .var t ts => ts.length + 1 ≤ 20 ∧ t.Supported ∧ ts.AllSupported
/-- All types of a list are supported. -/
def Tys.AllSupported : Tys → Prop
  | .nil => True
  | .cons t ts => t.Supported ∧ ts.AllSupported
end

mutual
/-- A value fits the format: every string and container in it has fewer than 2^32
elements, and what is held in sets and maps is strictly increasing, as the
standard containers guarantee. -/
def Ty.Fits (lt : Orders) : (t : Ty) → t.Val → Prop
  | .num _, _ => True
  | .str _, v => v.length < 2 ^ 32
  | .ptr _ t, v => ∀ x, v = some x → t.Fits lt x
  | .seq t, v => v.length < 2 ^ 32 ∧ ∀ x ∈ v, t.Fits lt x
  | .set t, v => v.length < 2 ^ 32 ∧ (∀ x ∈ v, t.Fits lt x) ∧ v.Pairwise (fun a b => lt t a b = true)
  | .map k w, v => v.length < 2 ^ 32 ∧ (∀ x ∈ v, k.Fits lt x.1 ∧ w.Fits lt x.2) ∧
      v.Pairwise (fun a b => lt k a.1 b.1 = true)
  | .pair a b, v => a.Fits lt v.1 ∧ b.Fits lt v.2
  | .tup ts, v => ts.FitsTuple lt v
  | .var t ts, v => match v with
      | .inl x => t.Fits lt x
      | .inr y => ts.FitsAlt lt y
/-- Element-wise `Fits` for tuples. -/
def Tys.FitsTuple (lt : Orders) : (ts : Tys) → ts.Tuple → Prop
  | .nil, _ => True
  | .cons t ts, v => t.Fits lt v.1 ∧ ts.FitsTuple lt v.2
/-- `Fits` for the held alternative. -/
def Tys.FitsAlt (lt : Orders) : (ts : Tys) → ts.Alt → Prop
  | .nil, e => e.elim
  | .cons t ts, v => match v with
      | .inl x => t.Fits lt x
      | .inr y => ts.FitsAlt lt y
end

mutual
/-- A fresh target object: the strings and containers in it are empty (numbers,
pointers and variants may hold anything). Default-constructed objects are fresh. -/
def Ty.Fresh : (t : Ty) → t.Val → Prop
  | .num _, _ => True
  | .str _, v => v = []
  | .ptr _ _, _ => True
  | .seq _, v => v = []
  | .set _, v => v = []
  | .map _ _, v => v = []
  | .pair a b, v => a.Fresh v.1 ∧ b.Fresh v.2
  | .tup ts, v => ts.FreshTuple v
  | .var _ _, _ => True
/-- Element-wise `Fresh` for tuples. -/
def Tys.FreshTuple : (ts : Tys) → ts.Tuple → Prop
  | .nil, _ => True
  | .cons t ts, v => t.Fresh v.1 ∧ ts.FreshTuple v.2
end

/-- The comparison operators never say both `a < b` and `b < a`. -/
def Orders.Asymm (lt : Orders) : Prop := ∀ t a b, lt t a b = true → lt t b a = false

/-- A usable stream: good, not failed, positioned inside the buffer. -/
structure IStream.Usable (s : IStream) : Prop where
  good : s.good = true
  nofail : s.fail = false
  inside : s.pos ≤ s.buf.length

/-- The bytes not read yet. -/
def IStream.remaining (s : IStream) : Bytes := s.buf.drop s.pos

/-- A failed stream: every further read fails. -/
def IStream.Dead (s : IStream) : Prop := s.good = false ∧ s.fail = true

end Maf
