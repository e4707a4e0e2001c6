import Verif.Model.OperationId

/-!
C98: operation ids tell operations apart.

Specification: two operations of a service have the same id only if they are the same.
-/

namespace Maf.OpId

/-- letters, digits, underscore: what the name of an operation may be made of -/
def identChar (c : Char) : Bool := c.isAlphanum || c == '_'

theorem dot_split {a b k k' : List Char} (ha : '.' ∉ k) (hb : '.' ∉ k') (h : a ++ '.' :: k = b ++ '.' :: k') : a = b ∧ k = k' := by
  induction a generalizing b with
  | nil =>
    cases b with
    | nil => exact ⟨rfl, by simpa using h⟩
    | cons x b =>
      simp only [List.nil_append, List.cons_append, List.cons.injEq] at h
      exact absurd (by rw [h.2]; simp) ha
  | cons x a ih =>
    cases b with
    | nil =>
      simp only [List.nil_append, List.cons_append, List.cons.injEq] at h
      exact absurd (by rw [← h.2]; simp) hb
    | cons y b =>
      simp only [List.cons_append, List.cons.injEq] at h
      obtain ⟨h1, h2⟩ := ih h.2
      exact ⟨by rw [h.1, h1], h2⟩

theorem kind_nodot (k : Kind) : '.' ∉ k.name := by cases k <;> decide

theorem kind_inj {k k' : Kind} (h : k.name = k'.name) : k = k' := by
  cases k <;> cases k' <;> first | rfl | (exact absurd h (by decide))

/-- **C98.** With one prefix, operations of a contract have the same id only if they have the same name and kind. -/
theorem contract_differ {pre n n' : List Char} {k k' : Kind} (h : contract pre n k = contract pre n' k') : n = n' ∧ k = k' := by
  unfold contract at h
  rw [List.append_assoc (pre ++ n), List.append_assoc (pre ++ n')] at h
  obtain ⟨h1, h2⟩ := dot_split (kind_nodot k) (kind_nodot k') h
  exact ⟨List.append_cancel_left h1, kind_inj h2⟩

/-- a prefix that is empty or ends with a character no name contains -/
def Separated (pre : List Char) : Prop := pre = [] ∨ ∃ p c, pre = p ++ [c] ∧ identChar c = false

theorem suffix_split {p p' n n' : List Char} (hp : Separated p) (hp' : Separated p') (hn : ∀ c ∈ n, identChar c = true) (hn' : ∀ c ∈ n', identChar c = true)
    (h : p ++ n = p' ++ n') : p = p' ∧ n = n' := by
  rcases List.append_eq_append_iff.mp h with ⟨a, h1, h2⟩ | ⟨a, h1, h2⟩
  · -- p' = p ++ a, n = a ++ n'
    cases a with
    | nil => exact ⟨by rw [h1, List.append_nil], by simpa using h2⟩
    | cons x a =>
      rcases hp' with e | ⟨q, c, e, hc⟩
      · rw [e] at h1; simp at h1
      · have hm : c ∈ x :: a := by
          have h3 : q ++ [c] = p ++ (x :: a) := e.symm.trans h1
          have h4 := congrArg List.getLast? h3
          rw [List.getLast?_append, List.getLast?_append] at h4
          simp only [List.getLast?_singleton, Option.some_or] at h4
          cases hg : (x :: a).getLast? with
          | none => simp at hg
          | some z =>
            rw [hg] at h4
            simp only [Option.some_or, Option.some.injEq] at h4
            subst h4
            exact List.mem_of_getLast? hg
        have := hn c (by rw [h2]; exact List.mem_append.mpr (.inl hm))
        rw [hc] at this; cases this
  · cases a with
    | nil => exact ⟨by rw [h1, List.append_nil], by simpa using h2.symm⟩
    | cons x a =>
      rcases hp with e | ⟨q, c, e, hc⟩
      · rw [e] at h1; simp at h1
      · have hm : c ∈ x :: a := by
          have h3 : q ++ [c] = p' ++ (x :: a) := e.symm.trans h1
          have h4 := congrArg List.getLast? h3
          rw [List.getLast?_append, List.getLast?_append] at h4
          simp only [List.getLast?_singleton, Option.some_or] at h4
          cases hg : (x :: a).getLast? with
          | none => simp at hg
          | some z =>
            rw [hg] at h4
            simp only [Option.some_or, Option.some.injEq] at h4
            subst h4
            exact List.mem_of_getLast? hg
        have := hn' c (by rw [h2]; exact List.mem_append.mpr (.inl hm))
        rw [hc] at this; cases this

/-- **C98, in part.** With different prefixes, ids agree only if prefixes, names and kinds do, if each prefix is empty or ends with a character that no name contains
(missing: other prefixes). -/
theorem contract_prefix_partial {p p' n n' : List Char} {k k' : Kind} (hp : Separated p) (hp' : Separated p') (hn : ∀ c ∈ n, identChar c = true) (hn' : ∀ c ∈ n', identChar c = true)
    (h : contract p n k = contract p' n' k') : p = p' ∧ n = n' ∧ k = k' := by
  unfold contract at h
  rw [List.append_assoc (p ++ n), List.append_assoc (p' ++ n')] at h
  obtain ⟨h1, h2⟩ := dot_split (kind_nodot k) (kind_nodot k') h
  obtain ⟨h3, h4⟩ := suffix_split hp hp' hn hn' h1
  exact ⟨h3, h4, kind_inj h2⟩

/-- The hypotheses are met. -/
example : Separated "com.example.".toList ∧ (∀ c ∈ "get_state2".toList, identChar c = true) ∧ contract "com.example.".toList "get_state2".toList .request = "com.example.get_state2.request".toList :=
  ⟨.inr ⟨"com.example".toList, '.', by decide +kernel, by decide +kernel⟩, by decide +kernel, by decide +kernel⟩

/-- **C98, refuted.** A prefix that ends like a name may make two operations one. -/
theorem prefix_collides : contract "my".toList "status".toList .property = contract "m".toList "ystatus".toList .property := by decide +kernel

/-- **C98, in part.** Simple requests with different names and the same classes have different ids; so have those whose names and classes are as long (missing: the rest). -/
theorem simple_differ_partial {r r' i i' o o' : List Char} (h : simple r i o = simple r' i' o') :
    (i = i' ∧ o = o' → r = r') ∧ (r.length = r'.length ∧ i.length = i'.length → r = r' ∧ i = i' ∧ o = o') := by
  unfold simple at h
  refine ⟨?_, ?_⟩
  · rintro ⟨rfl, rfl⟩
    exact List.append_cancel_right (List.append_cancel_right h)
  · rintro ⟨h1, h2⟩
    obtain ⟨h3, h4⟩ := List.append_inj h (by rw [List.length_append, List.length_append, h1, h2])
    obtain ⟨h5, h6⟩ := List.append_inj h3 h1
    exact ⟨h5, h6, h4⟩

/-- **C98, refuted.** The id of a simple request is three names without a separator: two requests with other classes may have the same, and the handler of one reads
the input of the other as its own (undefined behaviour). -/
theorem simple_collides : simple "Get".toList "UserId".toList "Name".toList = simple "GetUser".toList "Id".toList "Name".toList ∧
    ∀ c c' v, c ≠ c' → deliver ⟨"Get".toList, "UserId".toList, "Name".toList, c⟩ ⟨"GetUser".toList, "Id".toList, "Name".toList, c'⟩ v = some .undefined := by
  have e : simple "GetUser".toList "Id".toList "Name".toList = simple "Get".toList "UserId".toList "Name".toList := by decide +kernel
  refine ⟨e.symm, fun c c' v h => ?_⟩
  unfold deliver
  rw [if_pos e]
  unfold translate
  dsimp only
  rw [if_neg (Ne.symm h)]

/-- **C98.** As long as ids of different requests differ, a handler gets the value that was sent, as an object of the right class. -/
theorem delivered_right {d e : Decl} {v : Nat} {g : Got} (hd : simple d.request d.input d.output = simple e.request e.input e.output → d = e) (h : deliver d e v = some g) : d = e ∧ g = .value v := by
  unfold deliver at h
  split at h
  · next he =>
    have := hd he.symm
    subst this
    refine ⟨rfl, ?_⟩
    unfold translate at h; simp at h; exact h.symm
  · cases h

example : deliver ⟨"Get".toList, "Id".toList, "Name".toList, 1⟩ ⟨"Get".toList, "Id".toList, "Name".toList, 1⟩ 5 = some (.value 5) := by decide +kernel

/-- **C98, refuted.** Asked by pointer, every message has the invalid id, so any two are the same operation; a null pointer is dereferenced. -/
theorem pointer_inverted : (∀ i, ofPointer (some i) = .id []) ∧ (∀ i j, sameOp (some i) (some j) = some true) ∧ ofPointer none = .undefined :=
  ⟨fun _ => rfl, fun _ _ => rfl, rfl⟩

end Maf.OpId
