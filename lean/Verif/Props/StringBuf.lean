import Verif.Lemmas.StringBuf

/-!
C92: a string buffer (`BasicStringBuf`) is an in-memory file, and stays inside its array.
The specification is `File` in Props/StringBufSpec.

C93: the write-only buffer (`BasicStreamBuf`) holds the concatenation of what was written.
-/

namespace Maf.SBuf

/-- **C92.** Whatever is done with a buffer made empty: every result is that of
the file, and no character outside the array, or never written, is touched. -/
theorem empty_is_file (m : Mode) (ops : List Op) (hf : ∀ op ∈ ops, op.fits) :
    (run (mk m) ops).1 = ((File.make (!m.noread) (!m.constant) m.atend []).run ops).1 ∧ (run (mk m) ops).2.ub = false := by
  have h := rel_run (rel_empty m) ops hf
  have e : File.make (!m.noread) (!m.constant) m.atend [] = ⟨!m.noread, !m.constant, m.atend, [], 0, 0⟩ := by
    unfold File.make File.fill; cases m.noread <;> cases m.constant <;> cases m.atend <;> rfl
  rw [e]
  exact ⟨h.1, h.2.ub⟩

/-- **C92.** The same for a buffer made from a string; it is refused if and only
if the string is longer than `INT_MAX`. -/
theorem filled_is_file (s : List Nat) (m : Mode) (ops : List Op) (hf : ∀ op ∈ ops, op.fits) :
    (mkStr s m = none ↔ intMax < s.length) ∧
    ∀ b, mkStr s m = some b → (run b ops).1 = ((File.make (!m.noread) (!m.constant) m.atend s).run ops).1 ∧ (run b ops).2.ub = false := by
  unfold mkStr
  by_cases hs : s.length > intMax
  · rw [if_pos hs]; exact ⟨⟨fun _ => hs, fun _ => rfl⟩, fun b hb => by cases hb⟩
  · rw [if_neg hs]
    refine ⟨⟨(by intro h; cases h), fun h => absurd h hs⟩, fun b hb => ?_⟩
    cases hb
    have h := rel_run (rel_fill (b := Buf.blank m) (f := ⟨!m.noread, !m.constant, m.atend, [], 0, 0⟩) ⟨rfl, rfl, rfl⟩ ⟨rfl, rfl, rfl, rfl, rfl, rfl⟩ (s := s) (by omega)) ops hf
    exact ⟨h.1, h.2.ub⟩

theorem File.run_append (f : File) (a b : List Op) : (f.run (a ++ b)).1 = (f.run a).1 ++ ((f.run a).2.run b).1 ∧ (f.run (a ++ b)).2 = ((f.run a).2.run b).2 := by
  induction a generalizing f with
  | nil => exact ⟨rfl, rfl⟩
  | cons o a ih => simp [File.run, ih]

theorem puts_text (s : List Nat) (f : File) (hw : f.canWrite = true) (hp : f.p = f.text.length) (hl : f.text.length + s.length ≤ intMax) :
    (f.run (s.map .put)).1 = s.map (fun c => Out.char (some c)) ∧
    (f.run (s.map .put)).2 = { f with text := f.text ++ s, p := f.p + s.length } := by
  induction s generalizing f with
  | nil => simp [File.run]
  | cons c s ih =>
    simp only [List.length_cons] at hl
    have hov : overwrite f.text f.p c = f.text ++ [c] := by
      unfold overwrite; rw [hp, List.take_of_length_le (Nat.le_refl _), List.drop_of_length_le (by omega)]
    have hst : f.step (.put c) = (.char (some c), { f with text := f.text ++ [c], p := f.p + 1 }) := by
      simp only [File.step]; rw [if_pos ⟨hw, .inr (by omega)⟩, hov]
    obtain ⟨h1, h2⟩ := ih { f with text := f.text ++ [c], p := f.p + 1 } hw (by simp [hp]) (by simp; omega)
    simp only [List.map_cons, File.run, hst]
    refine ⟨by rw [h1], ?_⟩
    rw [h2]; simp; omega

theorem gets_text (n : Nat) (f : File) (hr : f.canRead = true) (hl : f.g + n ≤ f.text.length) :
    (f.run (List.replicate n .get)).1 = ((f.text.drop f.g).take n).map (fun c => Out.char (some c)) := by
  induction n generalizing f with
  | zero => simp [File.run]
  | succ n ih =>
    have hlt : f.g < f.text.length := by omega
    have hst : f.step .get = (.char (some f.text[f.g]), { f with g := f.g + 1 }) := by
      simp only [File.step]; rw [if_pos ⟨hr, hlt⟩, List.getElem?_eq_getElem hlt]
    have h1 := ih { f with g := f.g + 1 } hr (show f.g + 1 + n ≤ f.text.length by omega)
    simp only [List.replicate_succ, File.run, hst]
    rw [h1]
    rw [List.drop_eq_getElem_cons hlt, List.take_succ_cons, List.map_cons]

/-- **C92.** What is written into an empty buffer is what `str()` gives and what
can be read back. -/
theorem written_is_read (s : List Nat) (hs : s.length ≤ intMax) (ate : Bool) :
    (run (mk ⟨false, false, ate⟩) (s.map .put ++ [.str] ++ List.replicate s.length .get ++ [.get])).1 =
      s.map (fun c => Out.char (some c)) ++ [.text (s.map some)] ++ s.map (fun c => Out.char (some c)) ++ [.char none] := by
  rw [(empty_is_file _ _ (by
    intro op hop
    simp only [List.mem_append, List.mem_map, List.mem_singleton] at hop
    rcases hop with ((⟨c, -, rfl⟩ | rfl) | h) | rfl
    · trivial
    · trivial
    · rw [List.eq_of_mem_replicate h]; trivial
    · trivial)).1]
  have e : File.make (!false) (!false) ate [] = ⟨true, true, ate, [], 0, 0⟩ := by cases ate <;> rfl
  rw [e]
  have hput := puts_text s ⟨true, true, ate, [], 0, 0⟩ rfl rfl (by simpa using hs)
  simp only [List.nil_append, Nat.zero_add] at hput
  rw [(File.run_append _ _ [.get]).1, (File.run_append _ _ (List.replicate s.length .get)).1, (File.run_append _ _ [.str]).1, hput.1]
  rw [(File.run_append _ _ (List.replicate s.length .get)).2, (File.run_append _ _ [.str]).2, hput.2]
  have hstr : (⟨true, true, ate, s, 0, s.length⟩ : File).run [.str] = ([.text (s.map some)], ⟨true, true, ate, s, 0, s.length⟩) := rfl
  rw [hstr]
  have hg := gets_text s.length ⟨true, true, ate, s, 0, s.length⟩ rfl (by simp)
  simp only [List.drop_zero, List.take_length] at hg
  rw [hg]
  congr 1
  -- after reading everything there is nothing more
  have hpos : ∀ n (f : File), f.canRead = true → f.g + n ≤ f.text.length →
      (f.run (List.replicate n .get)).2 = { f with g := f.g + n } := by
    intro n
    induction n with
    | zero => intro f _ _; rfl
    | succ n ih =>
      intro f hr hl
      have hlt : f.g < f.text.length := by omega
      have hst : f.step .get = (.char (some f.text[f.g]), { f with g := f.g + 1 }) := by
        simp only [File.step]; rw [if_pos ⟨hr, hlt⟩, List.getElem?_eq_getElem hlt]
      simp only [List.replicate_succ, File.run, hst]
      rw [ih { f with g := f.g + 1 } hr (show f.g + 1 + n ≤ f.text.length by omega)]
      simp; omega
  rw [hpos s.length _ rfl (by simp)]
  simp [File.run, File.step]

/-- Non-trivial runs: growing, seeking back and overwriting, putting back, reading up to the end. -/
example : (run (mk ⟨false, false, false⟩) [.get, .put 1, .put 2, .put 3, .get, .seek (-2) .fin false true, .put 9, .str, .peek,
    .putback 7, .unget, .seek 5 .beg true false, .seekTo 3 true true, .get, .put 4, .get, .get, .str]).1 =
    [.char none, .char (some 1), .char (some 2), .char (some 3), .char (some 1), .pos (some 1), .char (some 9),
     .text [some 1, some 9, some 3], .char (some 9), .char (some 7), .char none, .pos none, .pos (some 3), .char none,
     .char (some 4), .char (some 4), .char none, .text [some 7, some 9, some 3, some 4]] := by decide +kernel

/-- A read-only buffer. -/
example : ((mkStr [5, 6, 7] ⟨false, true, false⟩).map fun b => (run b [.put 1, .get, .putback 9, .putback 5, .get, .get, .get, .get,
    .seek (-1) .fin true false, .get, .seek 1 .beg true true, .setStr [8], .get, .str]).1) =
    some [.char none, .char (some 5), .char none, .char (some 5), .char (some 5), .char (some 6), .char (some 7), .char none,
     .pos (some 2), .char (some 7), .pos none, .done true, .char (some 8), .text [some 8]] := by decide +kernel

/-- `app` does not make all writes appends (the comment on `Append_` says it does): after a seek the text is overwritten. -/
theorem append_overwrites : ((mkStr [1, 2] ⟨true, false, true⟩).map fun b => (run b [.put 3, .seek 0 .beg false true, .put 9, .str]).1) =
    some [.char (some 3), .pos (some 0), .char (some 9), .text [some 9, some 2, some 3]] := by decide +kernel

/-! ### C93: `BasicStreamBuf` -/

/-- What an operation adds to the text, or replaces it by. -/
def wrote (t : List Nat) : OutOp → List Nat
  | .putc c => t ++ [c]
  | .puts s => t ++ s
  | .flushEof => t
  | .setStr s => s

/-- **C93.** The text is the concatenation of what was written since it was last
set, whatever was done. -/
theorem text_is_written (t : List Nat) (ops : List OutOp) : (outRun t ops).2 = ops.foldl wrote t := by
  induction ops generalizing t with
  | nil => rfl
  | cons o ops ih =>
    simp only [outRun, List.foldl_cons, ih]
    cases o <;> rfl

/-- **C93.** Writing succeeds: `sputn` says how many characters it wrote, all of
them, and `sputc` never says `eof`. -/
theorem writes_succeed_partial (t : List Nat) : (∀ s, (outStep t (.puts s)).1 = some s.length) ∧ ∀ c, (outStep t (.putc c)).1 ≠ none := by
  refine ⟨fun s => rfl, fun c h => ?_⟩
  simp [outStep, outOverflow] at h

/-- **C93, refuted.** `sputc` does not give the character written: it gives 1. -/
theorem putc_gives_one (t : List Nat) (c : Nat) : (outStep t (.putc c)).1 = some 1 := rfl

/-- **C93, refuted.** Flushing without a character (`overflow(eof)`) is reported as a failure. -/
theorem flush_fails (t : List Nat) : outStep t .flushEof = (none, t) := rfl

example : outRun [] [.putc 72, .puts [105, 33], .setStr [1], .putc 2] = ([some 1, some 2, some 0, some 1], [1, 2]) := rfl

end Maf.SBuf
