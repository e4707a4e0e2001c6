/-
Byte streams of maf's serialization layer.

Models
  include/maf/utils/serialization/IByteStream.h
  include/maf/utils/serialization/OByteStream.h
-/
namespace Maf

/-- `Buffer.h:8` — `using Buffer = std::string;`, a sequence of bytes. -/
abbrev Bytes := List UInt8

/-- `IByteStream.h:11-73`, class `BasicIByteStream`: `buffer_`, `readingPos_` and
`state_`. The bits `Good = 1`, `Failed = 2`, `Eof = 4` of `state_` are three
booleans here. -/
structure IStream where
  buf : Bytes
  pos : Nat
  good : Bool
  fail : Bool
  eof : Bool
deriving DecidableEq, Repr

namespace IStream

/-- `IByteStream.h:21-22`: constructor with default arguments (`readingPos = 0`,
`state = Good`). -/
def ofBytes (b : Bytes) : IStream :=
  { buf := b, pos := 0, good := true, fail := false, eof := false }

/-- `IByteStream.h:32-46`, `read`. Result `none` means that the caller's memory
was not written. Simplification: `readingPos_ + size` is computed without
wrap-around at 2^64 (every size requested by the library is below 2^36). -/
def read (s : IStream) (n : Nat) : Option Bytes × IStream :=
  if s.good then
    if s.pos + n > s.buf.length then
      (none, { s with good := false, fail := true })
    else
      (some ((s.buf.drop s.pos).take n),
        { s with pos := s.pos + n, eof := s.eof || (s.pos + n == s.buf.length) })
  else
    (none, { s with good := false, fail := true })

/-- `IByteStream.h:51`, `clear(state)`: clears the given bits. -/
def clear (s : IStream) (g f e : Bool) : IStream :=
  { s with good := s.good && !g, fail := s.fail && !f, eof := s.eof && !e }

/-- `IByteStream.h:53-57`, `reset()`. -/
def reset (_ : IStream) : IStream := ofBytes []

/-- `IByteStream.h:91-99`: an `IByteStreamView` is constructed from a stream with
a reference to its buffer and copies of its position and state. -/
def view (s : IStream) : IStream :=
  { buf := s.buf, pos := s.pos, good := s.good, fail := s.fail, eof := s.eof }

end IStream

/-- `OByteStream.h:9-49`: `data_`, `currentPos_`, `state_` (bits good/failed). -/
structure OStream where
  data : Bytes
  pos : Nat
  good : Bool
  fail : Bool
deriving DecidableEq, Repr

namespace OStream

/-- `OByteStream.h:46-48`: member initialisers. -/
def empty : OStream := { data := [], pos := 0, good := true, fail := false }

/-- `std::string::resize(n)` with value-initialised (zero) fill. -/
def resize (d : Bytes) (n : Nat) : Bytes := d.take n ++ List.replicate (n - d.length) 0

/-- `OByteStream.h:24-32`, `prepareNextWrite`. -/
def prepareNextWrite (o : OStream) (n : Nat) : Bool × OStream :=
  if o.good then
    (true, if o.pos + n > o.data.length then { o with data := resize o.data (o.pos + n) } else o)
  else (false, o)

/-- `std::memcpy(data + pos, b, b.length)` inside an existing buffer. -/
def overwrite (d : Bytes) (pos : Nat) (b : Bytes) : Bytes :=
  d.take pos ++ b ++ d.drop (pos + b.length)

/-- `OByteStream.h:17-22`, `write`. -/
def write (o : OStream) (b : Bytes) : OStream :=
  match o.prepareNextWrite b.length with
  | (true, o') => { o' with data := overwrite o'.data o'.pos b, pos := o'.pos + b.length }
  | (false, o') => o'

/-- `OByteStream.h:34-38`, `reset`. -/
def reset (_ : OStream) : OStream := { data := [], pos := 0, good := true, fail := false }

/-- `OByteStream.h:42`: `bytes()` as used by `std::move(oss.bytes())`
(`LocalIPCMessage.cpp:51`): hands the data out and leaves an empty string, without
touching `currentPos_`. -/
def takeBytes (o : OStream) : Bytes × OStream := (o.data, { o with data := [] })

end OStream
end Maf
