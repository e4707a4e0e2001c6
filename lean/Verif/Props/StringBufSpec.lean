import Verif.Model.StringBuf

/-!
C92, specification: what a string buffer is to its user. A text with a place to
read at and a place to write at; nothing about arrays and pointers.
-/

namespace Maf.SBuf

/-- The specification: a text with a place to read at and a place to write at. -/
structure File where
  canRead : Bool
  canWrite : Bool
  /-- writing begins at the end -/
  ate : Bool
  text : List Nat
  g : Nat
  p : Nat

/-- A file with a text. (If it can neither be read nor written it has none.) -/
def File.fill (f : File) (s : List Nat) : File :=
  if f.canRead || f.canWrite then { f with text := s, g := 0, p := if f.canWrite && f.ate then s.length else 0 }
  else { f with text := [], g := 0, p := 0 }

def overwrite (t : List Nat) (i c : Nat) : List Nat := t.take i ++ c :: t.drop (i + 1)

/-- Where a seek starts from. -/
def File.origin (f : File) (w : Way) (i o : Bool) : Option Nat :=
  match w, i, o with
  | .beg, _, _ => some 0
  | .fin, _, _ => some f.text.length
  | .cur, true, false => if f.canRead || f.text.isEmpty then some f.g else none
  | .cur, false, true => if f.canWrite || f.text.isEmpty then some f.p else none
  | .cur, _, _ => none

/-- Going to `n`: allowed within the text; other than the beginning, only what can
be read or written can be moved. -/
def File.goto (f : File) (n : Int) (i o : Bool) : Option Nat × File :=
  if 0 ≤ n ∧ n ≤ f.text.length ∧ (n = 0 ∨ ((i = true → f.canRead = true) ∧ (o = true → f.canWrite = true))) then
    (some n.toNat, { f with g := if i && f.canRead then n.toNat else f.g, p := if o && f.canWrite then n.toNat else f.p })
  else (none, f)

def File.step (f : File) : Op → Out × File
  | .put c =>
    if f.canWrite = true ∧ (f.p < f.text.length ∨ f.text.length < intMax) then
      (.char (some c), { f with text := overwrite f.text f.p c, p := f.p + 1 })
    else (.char none, f)
  | .peek => (.char (if f.canRead then f.text[f.g]? else none), f)
  | .get =>
    if f.canRead = true ∧ f.g < f.text.length then (.char f.text[f.g]?, { f with g := f.g + 1 }) else (.char none, f)
  | .unget =>
    if f.canRead = true ∧ 0 < f.g then (.char f.text[f.g - 1]?, { f with g := f.g - 1 }) else (.char none, f)
  | .putback c =>
    if f.canRead = true ∧ 0 < f.g ∧ (f.canWrite = true ∨ f.text[f.g - 1]? = some c) then
      (.char (some c), { f with text := overwrite f.text (f.g - 1) c, g := f.g - 1 })
    else (.char none, f)
  | .seek off w i o =>
    match f.origin w i o with
    | none => (.pos none, f)
    | some n => (.pos (f.goto (off + n) i o).1, (f.goto (off + n) i o).2)
  | .seekTo n i o => (.pos (f.goto n i o).1, (f.goto n i o).2)
  | .str => (.text (f.text.map some), f)
  | .setStr s => if s.length > intMax then (.done false, f.fill []) else (.done true, f.fill s)

def File.run (f : File) : List Op → List Out × File
  | [] => ([], f)
  | op :: ops => ((f.step op).1 :: ((f.step op).2.run ops).1, ((f.step op).2.run ops).2)

/-- offsets are 64-bit numbers -/
def Op.fits : Op → Prop
  | .seek off _ _ _ => -9223372036854775808 ≤ off ∧ off < 9223372036854775808
  | .seekTo off _ _ => -9223372036854775808 ≤ off ∧ off < 9223372036854775808
  | _ => True

/-- The file made by a constructor. -/
def File.make (canRead canWrite ate : Bool) (s : List Nat) : File := (⟨canRead, canWrite, ate, [], 0, 0⟩ : File).fill s

end Maf.SBuf
