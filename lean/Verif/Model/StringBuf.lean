/-
Model of the string buffers.

Models /repo/include/maf/utils/serialization/BasicStreamBuf.h, lines 10-70
(`BasicStreamBuf`, write only: at the end of this file) and 72-476 (`BasicStringBuf`).

Characters are numbers, `eof` is `none`. A pointer into the array is its offset
from the array's beginning, `none` the null pointer; `eback()` and `pbase()` are
the beginning of the array whenever there is one, `epptr()` is its end whenever
`pptr()` is not null (the calls of `setp` and `setg` in lines 225-230, 283, 343-347, 380-384, 408-420,
437-438 keep it so; there are no others). A cell of the array that was never written is
`none`; touching such a cell, or one outside the array, or handing back another
size than was allocated, sets `ub`.

Simplifications.
* The public members of `std::basic_streambuf` (`sputc`, `sgetc`, `sbumpc`,
  `sungetc`, `sputbackc`) are modelled after the standard; `sputn` and `sgetn`,
  not overridden by `BasicStringBuf`, are repetitions of `sputc` and `sbumpc`.
* Allocation does not fail. Moving and swapping are not modelled: `swap` calls
  itself with two arguments (lines 117-118) and does not compile when used.
* The branch of `overflow` for a buffer with room (lines 195-199) is there, but `sputc`
  does not reach it.
-/

namespace Maf.SBuf

/-- `INT_MAX` -/
def intMax : Nat := 2147483647
/-- `MINSIZE_` (line 448) -/
def minSize : Nat := 32

/-- `state_` without `Allocated_` (lines 130-137, 451-471). -/
structure Mode where
  noread : Bool
  constant : Bool
  /-- `Append_` or `Atend_`: they are only used together -/
  atend : Bool
deriving DecidableEq, Repr

structure Buf where
  mode : Mode
  /-- `Allocated_` -/
  alloc : Bool
  cells : List (Option Nat)
  /-- `gptr()`, `egptr()` -/
  g : Option Nat
  ge : Nat
  /-- `pptr()` -/
  p : Option Nat
  /-- `seekHigh_` -/
  high : Nat
  ub : Bool

/-- `*ptr` -/
def Buf.read (b : Buf) (i : Nat) : Nat × Buf :=
  match b.cells[i]? with
  | some (some c) => (c, b)
  | _ => (0, { b with ub := true })

/-- `*ptr = c` -/
def Buf.store (b : Buf) (i c : Nat) : Buf :=
  if i < b.cells.length then { b with cells := b.cells.set i (some c) } else { b with ub := true }

/-- `tidy` (lines 428-441): frees `(pptr() != nullptr ? epptr() : egptr()) - eback()` characters. -/
def Buf.tidy (b : Buf) : Buf :=
  { b with
    alloc := false, cells := [], g := none, ge := 0, p := none, high := 0,
    ub := b.ub || (b.alloc && (if b.p.isSome then b.cells.length else b.ge) != b.cells.length) }

/-- `init` (lines 390-426) with a string that is not too long. -/
def Buf.fill (b : Buf) (s : List Nat) (m : Mode) : Buf :=
  if s ≠ [] ∧ ¬ (m.noread = true ∧ m.constant = true) then
    { b with
      mode := m, alloc := true, cells := s.map some, high := s.length,
      g := if m.noread then (if m.constant then b.g else none) else some 0,
      ge := if m.noread then (if m.constant then b.ge else 0) else s.length,
      p := if m.constant then b.p else some (if m.atend then s.length else 0) }
  else { b with mode := m, high := 0 }

/-- No buffer: all pointers null. -/
def Buf.blank (m : Mode) : Buf :=
  { mode := m, alloc := false, cells := [], g := none, ge := 0, p := none, high := 0, ub := false }

/-- The constructors (lines 84-96); `none`: `bad_alloc`. -/
def mk (m : Mode) : Buf := Buf.blank m

def mkStr (s : List Nat) (m : Mode) : Option Buf :=
  if s.length > intMax then none else some ((Buf.blank m).fill s m)

/-- `str(s)` (lines 177-180): after `tidy`, `bad_alloc` leaves an empty buffer. -/
def setStr (b : Buf) (s : List Nat) : Bool × Buf :=
  if s.length > intMax then (false, b.tidy) else (true, b.tidy.fill s b.mode)

/-- The end of what was written: `_Max_value(pptr(), seekHigh_)`. -/
def Buf.top (b : Buf) (p : Nat) : Nat := max p b.high

/-- Characters `[0, n)` of the array. -/
def Buf.chars (b : Buf) (n : Nat) : List (Option Nat) := b.cells.take n

/-- `str()`, `view()` (lines 143-175): the characters, `none` where the array was
never written. -/
def getStr (b : Buf) : List (Option Nat) :=
  if !b.mode.constant && b.p.isSome then b.chars (b.top (b.p.getD 0))
  else if !b.mode.noread && b.g.isSome then b.chars b.ge
  else []

/-- The size after growing (lines 208-219). -/
def newSize (old : Nat) : Option Nat :=
  if old < minSize then some minSize
  else if old < intMax / 2 then some (old * 2)
  else if old < intMax then some intMax
  else none

/-- lines 221-238 -/
def Buf.grow (b : Buf) (old new c : Nat) : Buf :=
  { b with
    alloc := true
    cells := b.cells.take old ++ some c :: List.replicate (new - old - 1) none
    high := old + 1
    p := some (old + 1)
    g := if b.mode.noread then none else some (b.g.getD 0)
    ge := if b.mode.noread then 0 else old + 1
    ub := b.ub || (b.alloc && old != b.cells.length) }

/-- `overflow` (lines 183-239). -/
def overflow (b : Buf) (c : Option Nat) : Option Nat × Buf :=
  if b.mode.constant then (none, b)
  else match c with
    | none => (some 0, b)
    | some c =>
      if b.p.isSome ∧ b.p.getD 0 < b.cells.length then
        (some c, { b.store (b.p.getD 0) c with p := some (b.p.getD 0 + 1), high := b.p.getD 0 + 1 })
      else match newSize (if b.p.isSome then b.cells.length else 0) with
        | none => (none, b)
        | some n => (some c, b.grow (if b.p.isSome then b.cells.length else 0) n c)

def sputc (b : Buf) (c : Nat) : Option Nat × Buf :=
  if b.p.isSome ∧ b.p.getD 0 < b.cells.length then
    (some c, { b.store (b.p.getD 0) c with p := some (b.p.getD 0 + 1) })
  else overflow b (some c)

def Buf.peek (b : Buf) (i : Nat) : Option Nat × Buf := (some (b.read i).1, (b.read i).2)

/-- `underflow` (lines 260-285). -/
def underflow (b : Buf) : Option Nat × Buf :=
  match b.g with
  | none => (none, b)
  | some i =>
    if i < b.ge then b.peek i
    else match b.p with
      | none => (none, b)
      | some p =>
        if b.mode.noread then (none, b)
        else if b.top p ≤ i then (none, b)
        else { b with high := b.top p, ge := b.top p }.peek i

def sgetc (b : Buf) : Option Nat × Buf :=
  match b.g with
  | some i => if i < b.ge then b.peek i else underflow b
  | none => underflow b

/-- `sbumpc`: what `sgetc` gives, and on. -/
def sbumpc (b : Buf) : Option Nat × Buf :=
  match sgetc b with
  | (none, b') => (none, b')
  | (some c, b') => (some c, { b' with g := b'.g.map (· + 1) })

/-- `pbackfail` (lines 241-258). -/
def pbackfail (b : Buf) (c : Option Nat) : Option Nat × Buf :=
  match b.g with
  | none => (none, b)
  | some 0 => (none, b)
  | some (i + 1) =>
    match c with
    | none => (some 0, { b with g := some i })
    | some c =>
      if ((b.read i).1 != c) && b.mode.constant then (none, (b.read i).2)
      else (some c, { (b.read i).2.store i c with g := some i })

def sputbackc (b : Buf) (c : Nat) : Option Nat × Buf :=
  match b.g with
  | some (i + 1) =>
    if (b.read i).1 = c then (some c, { (b.read i).2 with g := some i }) else pbackfail (b.read i).2 (some c)
  | _ => pbackfail b (some c)

def sungetc (b : Buf) : Option Nat × Buf :=
  match b.g with
  | some (i + 1) => { b with g := some i }.peek i
  | _ => pbackfail b none

inductive Way where
  | beg | cur | fin
deriving DecidableEq, Repr

/-- `static_cast<unsigned long long>` -/
def toU64 (x : Int) : Nat := (x % 18446744073709551616).toNat

/-- lines 294-296, 361-364 -/
def Buf.raise (b : Buf) : Buf :=
  match b.p with
  | some p => if b.high < p then { b with high := p } else b
  | none => b

/-- Where a seek starts from (lines 300-328); `none`: not allowed. -/
def origin (b : Buf) (w : Way) (i o : Bool) : Option Nat :=
  match w with
  | .beg => some 0
  | .fin => some b.high
  | .cur =>
    if i && o then none
    else if i then (if b.g.isSome || !b.alloc then some (b.g.getD 0) else none)
    else if o then (if b.p.isSome || !b.alloc then some (b.p.getD 0) else none)
    else none

/-- lines 335-350, 373-387: go to `n` -/
def goto (b : Buf) (n : Nat) (i o : Bool) : Option Nat × Buf :=
  if n ≠ 0 ∧ ((i = true ∧ b.g = none) ∨ (o = true ∧ b.p = none)) then (none, b)
  else (some n,
    { b with
      g := if i && b.g.isSome then some n else b.g
      ge := if i && b.g.isSome then b.high else b.ge
      p := if o && b.p.isSome then some n else b.p })

/-- `seekoff` (lines 287-351); `i`, `o`: does `mode` contain `in`, `out`? `none` is `pos_type(-1)`. -/
def seekoff (b : Buf) (off : Int) (w : Way) (i o : Bool) : Option Nat × Buf :=
  match origin b.raise w i o with
  | none => (none, b.raise)
  | some n =>
    if toU64 (off + n) > b.raise.high then (none, b.raise)
    else goto b.raise (toU64 (off + n)) i o

/-- `seekpos` (lines 353-388). -/
def seekpos (b : Buf) (off : Int) (i o : Bool) : Option Nat × Buf :=
  if toU64 off > b.raise.high then (none, b.raise)
  else goto b.raise (toU64 off) i o

inductive Op where
  | put (c : Nat)
  | peek
  | get
  | unget
  | putback (c : Nat)
  | seek (off : Int) (w : Way) (i o : Bool)
  | seekTo (pos : Int) (i o : Bool)
  | str
  | setStr (s : List Nat)

inductive Out where
  | char (c : Option Nat)
  | pos (n : Option Nat)
  | text (s : List (Option Nat))
  | done (ok : Bool)
deriving DecidableEq, Repr

def step (b : Buf) : Op → Out × Buf
  | .put c => ((.char (sputc b c).1), (sputc b c).2)
  | .peek => ((.char (sgetc b).1), (sgetc b).2)
  | .get => ((.char (sbumpc b).1), (sbumpc b).2)
  | .unget => ((.char (sungetc b).1), (sungetc b).2)
  | .putback c => ((.char (sputbackc b c).1), (sputbackc b c).2)
  | .seek off w i o => ((.pos (seekoff b off w i o).1), (seekoff b off w i o).2)
  | .seekTo p i o => ((.pos (seekpos b p i o).1), (seekpos b p i o).2)
  | .str => (.text (getStr b), b)
  | .setStr s => (.done (setStr b s).1, (setStr b s).2)

def run (b : Buf) : List Op → List Out × Buf
  | [] => ([], b)
  | op :: ops => ((step b op).1 :: (run (step b op).2 ops).1, (run (step b op).2 ops).2)

/-! ### `BasicStreamBuf` (lines 10-70): there is no array, every write is an `overflow` or `xsputn` -/

/-- `xsputn` (lines 54-59) -/
def xsputn (str s : List Nat) : Nat × List Nat := (s.length, str ++ s)

/-- `overflow` (lines 61-70): returns what `xsputn` returns. -/
def outOverflow (str : List Nat) (c : Option Nat) : Option Nat × List Nat :=
  match c with
  | none => (none, str)
  | some c => (some (xsputn str [c]).1, (xsputn str [c]).2)

inductive OutOp where
  | putc (c : Nat)
  | puts (s : List Nat)
  | flushEof
  | setStr (s : List Nat)

def outStep (str : List Nat) : OutOp → Option Nat × List Nat
  | .putc c => outOverflow str (some c)
  | .puts s => (some (xsputn str s).1, (xsputn str s).2)
  | .flushEof => outOverflow str none
  | .setStr s => (some 0, s)

def outRun (str : List Nat) : List OutOp → List (Option Nat) × List Nat
  | [] => ([], str)
  | o :: os => ((outStep str o).1 :: (outRun (outStep str o).2 os).1, (outRun (outStep str o).2 os).2)

end Maf.SBuf
