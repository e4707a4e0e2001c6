import Verif.Model.Stream
/-
The generic serializer.

Models
  include/maf/utils/serialization/Serializer.h
  include/maf/utils/serialization/VariantSerializer.h
-/
namespace Maf

mutual
/-- The types `Serializer.h` can handle:
* `num w`     arithmetic or enum type with `sizeof = w` (`Serializer.h:164-178`)
* `str cw`    `std::basic_string<CharT>` with `sizeof(CharT) = cw` (350-381)
* `ptr false t` raw pointer (180-225), `ptr true t` smart pointer (227-246)
* `seq t`     back-insertible container (248-290)
* `set t`     container filled by `insert`, compared by `<` on elements (281-283)
* `map k v`   same, compared by `<` on keys
* `pair a b`  `std::pair` (294-321)
* `tup ts`    `std::tuple`, and structs/tuplizables through their tuple view
              (118-162, 323-348)
* `var t ts`  `std::variant<t, ts...>` (`VariantSerializer.h:12-79`) -/
inductive Ty where
  | num (w : Nat)
  | str (cw : Nat)
  | ptr (smart : Bool) (t : Ty)
  | seq (t : Ty)
  | set (t : Ty)
  | map (k v : Ty)
  | pair (a b : Ty)
  | tup (ts : Tys)
  | var (t : Ty) (ts : Tys)
/-- Element type lists of tuples and variants. -/
inductive Tys where
  | nil
  | cons (t : Ty) (ts : Tys)
end

/-- Number of types in a list. -/
def Tys.length : Tys → Nat
  | .nil => 0
  | .cons _ ts => ts.length + 1

mutual
/-- C++ values of each type. A pointer is null or points to a value; sets and
maps are the sequences their iteration yields. -/
@[reducible] def Ty.Val : Ty → Type
  | .num w => Fin (256 ^ w)
  | .str cw => List (Fin (256 ^ cw))
  | .ptr _ t => Option t.Val
  | .seq t => List t.Val
  | .set t => List t.Val
  | .map k v => List (k.Val × v.Val)
  | .pair a b => a.Val × b.Val
  | .tup ts => ts.Tuple
  | .var t ts => t.Val ⊕ ts.Alt
/-- Values of a tuple. -/
@[reducible] def Tys.Tuple : Tys → Type
  | .nil => Unit
  | .cons t ts => t.Val × ts.Tuple
/-- Values of the further alternatives of a variant. -/
@[reducible] def Tys.Alt : Tys → Type
  | .nil => Empty
  | .cons t ts => t.Val ⊕ ts.Alt
end

/-- The number zero of a `w`-byte type. -/
def zeroNum (w : Nat) : Fin (256 ^ w) := ⟨0, Nat.pow_pos (by decide)⟩

mutual
/-- A default-constructed object (`DSBElemType elem;` `Serializer.h:277`,
`new T{}` 216, `std::tuple_element_t<...> e;` `VariantSerializer.h:34`).
Simplification: uninitialised numbers are taken to be zero. -/
def Ty.dflt : (t : Ty) → t.Val
  | .num w => zeroNum w
  | .str _ => []
  | .ptr _ _ => none
  | .seq _ => []
  | .set _ => []
  | .map _ _ => []
  | .pair a b => (a.dflt, b.dflt)
  | .tup ts => ts.dfltTuple
  | .var t _ => .inl t.dflt
/-- A default-constructed tuple. -/
def Tys.dfltTuple : (ts : Tys) → ts.Tuple
  | .nil => ()
  | .cons t ts => (t.dflt, ts.dfltTuple)
end

/-- Object representation of a `w`-byte number on a little-endian machine
(`to_cstr(&value)`, `Serializer.h:69-77`). -/
def leBytes : Nat → Nat → Bytes
  | 0, _ => []
  | w + 1, n => UInt8.ofNat n :: leBytes w (n / 256)

/-- Value of a little-endian object representation. -/
def leNat : Bytes → Nat
  | [] => 0
  | b :: bs => b.toNat + 256 * leNat bs

/-- The number whose object representation is `bs` (first `w` bytes). -/
def numOfBytes (w : Nat) (bs : Bytes) : Fin (256 ^ w) :=
  ⟨leNat bs % 256 ^ w, Nat.mod_lt _ (Nat.pow_pos (by decide))⟩

/-- Characters of a string as laid out in memory. -/
def charsBytes {cw : Nat} : List (Fin (256 ^ cw)) → Bytes
  | [] => []
  | c :: cs => leBytes cw c.val ++ charsBytes cs

/-- The first `n` characters stored at `bs`. -/
def charsOfBytes (cw : Nat) : Nat → Bytes → List (Fin (256 ^ cw))
  | 0, _ => []
  | n + 1, bs => numOfBytes cw (bs.take cw) :: charsOfBytes cw n (bs.drop cw)

/-- `v.index()` in a variant's further alternatives, counted from zero. -/
def Tys.altIndex : (ts : Tys) → ts.Alt → Nat
  | .nil, e => e.elim
  | .cons _ _, .inl _ => 0
  | .cons _ ts, .inr a => ts.altIndex a + 1

/-- `std::variant::index()`. -/
def varIndex {t : Ty} {ts : Tys} : (Ty.var t ts).Val → Nat
  | .inl _ => 0
  | .inr a => ts.altIndex a + 1

mutual
/-- `serialize(os, v)`: the bytes written, in order. The size prefix of strings and
containers is the low four bytes of the length (`Serializer.h:363-364`, 259-260).
The output stream itself is `OStream`; theorem C09 says it concatenates. -/
def Ty.ser : (t : Ty) → t.Val → Bytes
  -- Serializer.h:169-172
  | .num w, v => leBytes w v.val
  -- Serializer.h:362-369
  | .str _, v => leBytes 4 v.length ++ charsBytes v
  -- Serializer.h:189-202, 232-235
  | .ptr _ _, none => [0]
  | .ptr _ t, some v => 1 :: t.ser v
  -- Serializer.h:257-264
  | .seq t, v => leBytes 4 v.length ++ v.flatMap (fun x => t.ser x)
  | .set t, v => leBytes 4 v.length ++ v.flatMap (fun x => t.ser x)
  | .map k w, v => leBytes 4 v.length ++ v.flatMap (fun x => k.ser x.1 ++ w.ser x.2)
  -- Serializer.h:309-312
  | .pair a b, v => a.ser v.1 ++ b.ser v.2
  -- Serializer.h:336-339 (and 128-130, 154-156)
  | .tup ts, v => ts.serTuple v
  -- VariantSerializer.h:13-24
  | .var t _, .inl x => leBytes 4 0 ++ t.ser x
  | .var _ ts, .inr a => leBytes 4 (ts.altIndex a + 1) ++ ts.serAlt a
/-- `tuple_for_each(... serialize(os, elem))`, `Serializer.h:336-339`. -/
def Tys.serTuple : (ts : Tys) → ts.Tuple → Bytes
  | .nil, _ => []
  | .cons t ts, v => t.ser v.1 ++ ts.serTuple v.2
/-- `visit([&](auto const& e) { ... serialize(os, e); })`, `VariantSerializer.h:16-21`. -/
def Tys.serAlt : (ts : Tys) → ts.Alt → Bytes
  | .nil, e => e.elim
  | .cons t _, .inl x => t.ser x
  | .cons _ ts, .inr a => ts.serAlt a
end

/-- Arithmetic of `SizeType = uint32_t` (`Serializer.h:42`). -/
def u32 (n : Nat) : Nat := n % 2 ^ 32

mutual
/-- `serializedSize(v)`. It is not defined for variants in the code
(`VariantSerializer.h` has none), so variants return `none`. -/
def Ty.size : (t : Ty) → t.Val → Option Nat
  -- Serializer.h:164-167
  | .num w, _ => some (u32 w)
  -- Serializer.h:358-360
  | .str cw, v => some (u32 (4 + u32 (v.length * cw)))
  -- Serializer.h:180-187, 227-230
  | .ptr _ _, none => some 1
  | .ptr _ t, some v => (t.size v).map fun n => u32 (1 + n)
  -- Serializer.h:248-255
  | .seq t, v => (v.foldl (fun acc x => acc.bind fun a => (t.size x).map fun n => u32 (a + n))
      (some 0)).map fun n => u32 (4 + n)
  | .set t, v => (v.foldl (fun acc x => acc.bind fun a => (t.size x).map fun n => u32 (a + n))
      (some 0)).map fun n => u32 (4 + n)
  | .map k w, v => (v.foldl (fun acc x => acc.bind fun a =>
      (k.size x.1).bind fun n => (w.size x.2).map fun m => u32 (a + u32 (n + m)))
      (some 0)).map fun n => u32 (4 + n)
  -- Serializer.h:304-307
  | .pair a b, v => (a.size v.1).bind fun n => (b.size v.2).map fun m => u32 (n + m)
  -- Serializer.h:328-334
  | .tup ts, v => ts.sizeTuple 0 v
  | .var _ _, _ => none
/-- `contentSize += serializedSize(elem)` over a tuple, `Serializer.h:328-334`. -/
def Tys.sizeTuple : (ts : Tys) → Nat → ts.Tuple → Option Nat
  | .nil, acc, _ => some acc
  | .cons t ts, acc, v => (t.size v.1).bind fun n => ts.sizeTuple (u32 (acc + n)) v.2
end

/-- What a call of `deserialize(is, value)` leaves behind: the returned flag, the
out-parameter and the stream. -/
structure DR (α : Type) where
  ok : Bool
  val : α
  st : IStream

/-- `operator<` of each element type, as used by `std::set`/`std::map`. -/
def Orders := (t : Ty) → t.Val → t.Val → Bool

/-- `std::set/map::insert` into the ordered sequence of elements: nothing happens if
an equivalent element is present. `lt` compares elements (by key for maps). -/
def insertBy {α : Type} (lt : α → α → Bool) (x : α) : List α → List α
  | [] => [x]
  | y :: ys => if lt x y then x :: y :: ys
               else if lt y x then y :: insertBy lt x ys
               else y :: ys

/-- `Serializer.h:174-178`: number deserialization; on a failed read the target
keeps its value. -/
def deserNum (w : Nat) (old : Fin (256 ^ w)) (s : IStream) : DR (Fin (256 ^ w)) :=
  let (r, s') := s.read w
  { ok := !s'.fail
    val := match r with
      | some bs => numOfBytes w bs
      | none => old
    st := s' }

/-- `value.resize(size)`, `Serializer.h:375`. -/
def resizeStr (cw : Nat) (v : List (Fin (256 ^ cw))) (n : Nat) : List (Fin (256 ^ cw)) :=
  v.take n ++ List.replicate (n - v.length) (zeroNum cw)

/-- `Serializer.h:371-380`: string deserialization. -/
def deserStr (cw : Nat) (old : List (Fin (256 ^ cw))) (s : IStream) :
    DR (List (Fin (256 ^ cw))) :=
  let n := deserNum 4 (zeroNum 4) s
  if n.ok then
    if n.val.val > 0 then
      let (r, s') := n.st.read (n.val.val * cw)
      { ok := !s'.fail
        val := match r with
          | some bs => charsOfBytes cw n.val.val bs
          | none => resizeStr cw old n.val.val
        st := s' }
    else { ok := !n.st.fail, val := old, st := n.st }
  else { ok := !n.st.fail, val := old, st := n.st }

/-- `Serializer.h:276-287`: the element loop of container deserialization, including
the accumulated flag `success |= ...` and the `break`. `elem` deserializes a fresh
element, `push` is `push_back` or `insert`. -/
def deserLoop {α β : Type} (elem : IStream → DR α) (push : List β → α → List β) :
    Nat → Bool → List β → IStream → DR (List β)
  | 0, success, c, s => { ok := success, val := c, st := s }
  | n + 1, success, c, s =>
    let r := elem s
    let success := success || r.ok
    if success then deserLoop elem push n success (push c r.val) r.st
    else { ok := success, val := c, st := r.st }

/-- `Serializer.h:268-290`: container deserialization. The container is not cleared
first. -/
def deserCont {α β : Type} (elem : IStream → DR α) (push : List β → α → List β)
    (old : List β) (s : IStream) : DR (List β) :=
  let n := deserNum 4 (zeroNum 4) s
  let success := false || n.ok
  if success && n.val.val > 0 then deserLoop elem push n.val.val success old n.st
  else { ok := success, val := old, st := n.st }

/-- `Serializer.h:314-320`: pair deserialization. -/
def deserPair {α β : Type} (fa : α → IStream → DR α) (fb : β → IStream → DR β)
    (old : α × β) (s : IStream) : DR (α × β) :=
  let r1 := fa old.1 s
  let success := false || r1.ok
  if success then
    let r2 := fb old.2 r1.st
    { ok := success || r2.ok, val := (r1.val, r2.val), st := r2.st }
  else { ok := success, val := (r1.val, old.2), st := r1.st }

mutual
/-- `deserialize(is, value)`; `old` is the previous value of the out-parameter. -/
def Ty.deser (lt : Orders) : (t : Ty) → t.Val → IStream → DR t.Val
  | .num w, old, s => deserNum w old s
  | .str cw, old, s => deserStr cw old s
  -- Serializer.h:204-225 (raw) and 237-246 (smart: `reset` only on success)
  | .ptr smart t, old, s =>
    let (r, s1) := s.read 1
    match r with
    | some [b] =>
      if b ≠ 0 then
        let e := t.deser lt t.dflt s1
        if e.ok then { ok := true, val := some e.val, st := e.st }
        else { ok := false, val := if smart then old else none, st := e.st }
      else { ok := true, val := none, st := s1 }
    | _ => { ok := true, val := none, st := s1 }
  -- Serializer.h:268-290
  | .seq t, old, s => deserCont (fun s => t.deser lt t.dflt s) (fun c x => c ++ [x]) old s
  | .set t, old, s =>
    deserCont (fun s => t.deser lt t.dflt s) (fun c x => insertBy (lt t) x c) old s
  | .map k v, old, s =>
    deserCont (fun s => deserPair (fun o s => k.deser lt o s) (fun o s => v.deser lt o s)
        (k.dflt, v.dflt) s)
      (fun c x => insertBy (fun a b => lt k a.1 b.1) x c) old s
  | .pair a b, old, s => deserPair (fun o s => a.deser lt o s) (fun o s => b.deser lt o s) old s
  | .tup ts, old, s => ts.deserTuple lt false old s
  -- VariantSerializer.h:26-79
  | .var t ts, old, s =>
    let n := deserNum 4 (zeroNum 4) s
    if n.ok && n.val.val < ts.length + 1 then
      match n.val.val with
      | 0 =>
        let e := t.deser lt t.dflt n.st
        if e.ok then { ok := true, val := .inl e.val, st := e.st }
        else { ok := false, val := old, st := e.st }
      | i + 1 =>
        let e := ts.deserAlt lt i n.st
        match e.val with
        | some a => { ok := true, val := .inr a, st := e.st }
        | none => { ok := false, val := old, st := e.st }
    else { ok := false, val := old, st := n.st }
/-- `Serializer.h:341-347`: `success |= deserialize(is, elem)` over all elements. -/
def Tys.deserTuple (lt : Orders) : (ts : Tys) → Bool → ts.Tuple → IStream → DR ts.Tuple
  | .nil, success, _, s => { ok := success, val := (), st := s }
  | .cons t ts, success, old, s =>
    let r := t.deser lt old.1 s
    let rs := ts.deserTuple lt (success || r.ok) old.2 r.st
    { ok := rs.ok, val := (r.val, rs.val), st := rs.st }
/-- `VariantSerializer.h:31-44,51-73`: dispatch on the index; `some` iff the
alternative exists and was deserialized. -/
def Tys.deserAlt (lt : Orders) : (ts : Tys) → Nat → IStream → DR (Option ts.Alt)
  | .nil, _, s => { ok := false, val := none, st := s }
  | .cons t _, 0, s =>
    let e := t.deser lt t.dflt s
    if e.ok then { ok := true, val := some (.inl e.val), st := e.st }
    else { ok := false, val := none, st := e.st }
  | .cons _ ts, i + 1, s =>
    let e := ts.deserAlt lt i s
    { ok := e.ok, val := e.val.map .inr, st := e.st }
end

end Maf
