import Verif.Model.EnumText
/-
C123: an enumerator is written as its name.
-/
namespace Maf.Enm

/-- No enumerator has an initialiser. -/
def Plain (es : List Enumerator) : Prop := ∀ e ∈ es, e.init = none

instance (es : List Enumerator) : Decidable (Plain es) := inferInstanceAs (Decidable (∀ _ ∈ _, _))

theorem values_length (k : Int) (es : List Enumerator) : (values k es).length = es.length := by
  induction es generalizing k with
  | nil => rfl
  | cons e es ih => simp [values, ih]

theorem plain_values {es : List Enumerator} (h : Plain es) (k : Int) (j : Nat) (hj : j < es.length) : (values k es)[j]? = some (k + j) := by
  induction es generalizing k j with
  | nil => simp at hj
  | cons e es ih =>
    have he : e.init = none := h e (by simp)
    have hs : Plain es := fun x hx => h x (by simp [hx])
    cases j with
    | zero => simp [values, he]
    | succ j =>
      simp only [List.length_cons] at hj
      simp only [values, he, Option.getD_none, List.getElem?_cons_succ]
      rw [ih hs _ _ (by omega)]
      congr 1
      omega

theorem plain_after {es : List Enumerator} (h : Plain es) (k : Int) : after k es = k + es.length := by
  induction es generalizing k with
  | nil => simp [after]
  | cons e es ih =>
    have he : e.init = none := h e (by simp)
    simp only [after, he, Option.getD_none, List.length_cons]
    rw [ih (fun x hx => h x (by simp [hx]))]
    omega

theorem after_append (k : Int) (es : List Enumerator) (e : Enumerator) : after k (es ++ [e]) = e.init.getD (after k es) + 1 := by
  induction es generalizing k with
  | nil => simp [after]
  | cons x es ih => simp [after, ih]

theorem values_append (k : Int) (es : List Enumerator) (e : Enumerator) : values k (es ++ [e]) = values k es ++ [e.init.getD (after k es)] := by
  induction es generalizing k with
  | nil => simp [values, after]
  | cons x es ih => simp [values, after, ih]

theorem strArr_at {es : List Enumerator} {j : Nat} {e : Enumerator} (hj : es[j]? = some e) : (strArr es)[j]? = some (text e) := by
  have hl : j < es.length := (List.getElem?_eq_some_iff.1 hj).1
  rw [strArr, List.getElem?_append_left (by simpa using hl), List.getElem?_map, hj]; rfl

theorem write_nat (es : List Enumerator) (j : Nat) : write es (j : Int) = (strArr es)[j]? := by
  simp [write]

/-- Without initialisers, every enumerator is written as its name.
Missing: declarations with initialisers that compile nevertheless (`accepted_swapped`, `accepted_out_of_bounds`). -/
theorem plain_written_partial {es : List Enumerator} (h : Plain es) (j : Nat) (e : Enumerator) (hj : es[j]? = some e) :
    ∃ v, (values 0 es)[j]? = some v ∧ write es v = some e.name := by
  have hl : j < es.length := by
    rw [List.getElem?_eq_some_iff] at hj; exact hj.1
  refine ⟨(0 : Int) + j, plain_values h 0 j hl, ?_⟩
  rw [Int.zero_add, write_nat, strArr_at hj]
  have he : e.init = none := h e (List.mem_of_getElem? hj)
  simp [text, he]

/-- Without initialisers, a declaration compiles if and only if it has between 1 and 125 enumerators and the underlying type can count them. -/
theorem plain_compiles {b : Base} {es : List Enumerator} (h : Plain es) :
    compiles b es ↔ 1 ≤ es.length ∧ es.length ≤ 125 ∧ (es.length : Int) ≤ b.max := by
  have ha := plain_after h 0
  have hz := b.zero
  constructor
  · rintro ⟨h1, h2, -, h4, -⟩
    refine ⟨h1, h2, ?_⟩
    have := h4.2
    rw [ha] at this
    omega
  · intro ⟨h1, h2, h3⟩
    refine ⟨h1, h2, ?_, ⟨by omega, by omega⟩, ?_⟩
    · intro v hv
      obtain ⟨j, hj⟩ := List.getElem?_of_mem hv
      have hl : j < es.length := by
        have := (List.getElem?_eq_some_iff.1 hj).1
        rw [values_length] at this; exact this
      rw [plain_values h 0 j hl] at hj
      simp only [Option.some.injEq] at hj
      exact ⟨by omega, by omega⟩
    · rw [ha]; simp [strArr]

/-- An enumerator is written as its own text if and only if its value is its position; texts are taken to be distinct, as names are. -/
theorem right_iff {es : List Enumerator} (hn : (strArr es).Nodup) (j : Nat) (e : Enumerator) (hj : es[j]? = some e) (v : Int) (_hv : (values 0 es)[j]? = some v) :
    write es v = some (text e) ↔ v = j := by
  have hw := strArr_at hj
  constructor
  · intro h
    simp only [write] at h
    split at h
    · rename_i hp
      have := (List.getElem?_inj (List.getElem?_eq_some_iff.1 h).1 hn).1 (h.trans hw.symm)
      omega
    · simp at h
  · intro h; subst h; rw [write_nat]; exact hw

/-- The check sees the last enumerator only: it is written as its own text, in every declaration that compiles. -/
theorem last_right {b : Base} {es : List Enumerator} {e : Enumerator} (h : compiles b (es ++ [e])) :
    ∃ v, (values 0 (es ++ [e]))[es.length]? = some v ∧ write (es ++ [e]) v = some (text e) := by
  obtain ⟨-, -, -, -, ha⟩ := h
  rw [after_append] at ha
  simp only [strArr, List.length_append, List.length_map, List.length_cons, List.length_nil] at ha
  have hv : e.init.getD (after 0 es) = (es.length : Int) := by omega
  refine ⟨es.length, ?_, ?_⟩
  · rw [values_append, hv, List.getElem?_append_right (by rw [values_length]; omega)]; simp [values_length]
  · rw [write_nat]; simp [strArr]

/-- An initialiser is written with the name, even if it does not change the value. -/
theorem initialiser_written (e : Enumerator) (i : Int) (h : e.init = some i) : text e ≠ e.name := by
  intro he
  have := congrArg String.length he
  simp only [text, h, String.length_append] at this
  have h3 : " = ".length = 3 := rfl
  omega

/-- Refuted: initialisers in another order than the values compile, and enumerators are written as others. -/
theorem accepted_swapped : ∃ es, compiles charType es ∧ (values 0 es)[0]? = some 1 ∧ write es 1 = some "Green = 0" ∧ es[0]? = some ⟨"Red", some 1⟩ :=
  ⟨[⟨"Red", some 1⟩, ⟨"Green", some 0⟩, ⟨"Blue", some 2⟩], by decide +kernel, by decide +kernel, by decide +kernel, rfl⟩

/-- Refuted: initialisers outside of the array compile, and writing is undefined behaviour. -/
theorem accepted_out_of_bounds : ∃ es v, compiles charType es ∧ (values 0 es)[0]? = some v ∧ write es v = none :=
  ⟨[⟨"Red", some 100⟩, ⟨"Green", some 1⟩], 100, by decide +kernel, by decide +kernel, by decide +kernel⟩

/-- `Availability` (CSStatus.h). -/
example : Plain [⟨"Available", none⟩, ⟨"Unavailable", none⟩, ⟨"Unknown", none⟩] ∧ compiles charType [⟨"Available", none⟩, ⟨"Unavailable", none⟩, ⟨"Unknown", none⟩] ∧
    (strArr [⟨"Available", none⟩, ⟨"Unavailable", none⟩, ⟨"Unknown", none⟩]).Nodup := by decide +kernel

end Maf.Enm
