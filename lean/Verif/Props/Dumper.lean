import Verif.Model.Dumper

/-!
C99: the text of a value.

Specification: two values of a type have the same text, at the same level of indentation, only if they are equal (the project's own tests compare texts to compare values);
a compact text is one line.
-/

namespace Maf.Dump

/-- the characters that stand between values -/
def delimiter (c : Char) : Bool := c == ',' || c == '\n' || c == ']' || c == '}' || c == ':' || c == ' '

mutual
/-- what the text of a value can be read back from: strings and characters without delimiters, strings not empty, pointers not null, enumerators of 32 bits without sign,
neither variants nor vectors of `bool` -/
def Plain : (t : Ty) → Val t → Prop
  | .bool, _ => True
  | .int, _ => True
  | .byte, c => delimiter c = false
  | .enum, i => 0 ≤ (show Int from i) ∧ (show Int from i) < 4294967296
  | .str, s => (show List Char from s) ≠ [] ∧ ∀ c ∈ (show List Char from s), delimiter c = false
  | .bits, _ => False
  | .list t, vs => ∀ v ∈ (show List (Val t) from vs), Plain t v
  | .map k v, ps => ∀ p ∈ (show List (Val k × Val v) from ps), Plain k p.1 ∧ Plain v p.2
  | .pair a b, p => Plain a p.1 ∧ Plain b p.2
  | .ptr t, p => ∃ v, (show Option (Val t) from p) = some v ∧ Plain t v
  | .variant _ _, _ => False
  | .tuple fs, vs => Plains fs vs
  | .obj _ t fs, vs => Plain t vs.1 ∧ Plains fs vs.2
def Plains : (fs : Flds) → Vals fs → Prop
  | .nil, _ => True
  | .cons _ t fs, vs => Plain t vs.1 ∧ Plains fs vs.2
end

/-! ### Numbers -/

theorem digit_val {n : Nat} (h : n < 10) : (digit n).toNat = 48 + n := by
  rcases n with _|_|_|_|_|_|_|_|_|_|n <;> first | rfl | omega

/-- the number a row of digits stands for -/
def value (s : List Char) : Nat := s.foldl (fun a c => 10 * a + (c.toNat - 48)) 0

theorem value_snoc (s : List Char) (c : Char) : value (s ++ [c]) = 10 * value s + (c.toNat - 48) := by
  unfold value; rw [List.foldl_append]; rfl

theorem value_decimal (n : Nat) : value (decimal n) = n := by
  induction n using Nat.strongRecOn with
  | _ n ih =>
    rw [decimal]
    split
    · next h => unfold value; simp only [List.foldl]; rw [digit_val h]; omega
    · next h =>
      rw [value_snoc, ih (n / 10) (by omega), digit_val (by omega)]
      omega

theorem decimal_inj {n m : Nat} (h : decimal n = decimal m) : n = m := by
  rw [← value_decimal n, h, value_decimal]

theorem decimal_digits (n : Nat) : ∀ c ∈ decimal n, ∃ k, k < 10 ∧ c = digit k := by
  induction n using Nat.strongRecOn with
  | _ n ih =>
    rw [decimal]
    split
    · next h => intro c hc; rw [List.mem_singleton] at hc; exact ⟨n, h, hc⟩
    · next h =>
      intro c hc
      rcases List.mem_append.mp hc with hc | hc
      · exact ih (n / 10) (by omega) c hc
      · rw [List.mem_singleton] at hc; exact ⟨n % 10, by omega, hc⟩

theorem decimal_ne (n : Nat) : decimal n ≠ [] := by
  rw [decimal]; split <;> simp

theorem digit_plain {k : Nat} (h : k < 10) : delimiter (digit k) = false ∧ digit k ≠ '-' := by
  rcases k with _|_|_|_|_|_|_|_|_|_|k <;> first | decide | omega

theorem decimal_plain (n : Nat) : ∀ c ∈ decimal n, delimiter c = false := by
  intro c hc
  obtain ⟨k, hk, rfl⟩ := decimal_digits n c hc
  exact (digit_plain hk).1

theorem decimal_minus (n : Nat) : '-' ∉ decimal n := by
  intro hc
  obtain ⟨k, hk, e⟩ := decimal_digits n _ hc
  exact (digit_plain hk).2 e.symm

theorem number_plain (i : Int) : ∀ c ∈ number i, delimiter c = false := by
  unfold number
  split
  · intro c hc
    rcases List.mem_cons.mp hc with rfl | hc
    · decide
    · exact decimal_plain _ c hc
  · exact decimal_plain _

theorem number_ne (i : Int) : number i ≠ [] := by
  unfold number; split
  · simp
  · exact decimal_ne _

theorem number_inj {i j : Int} (h : number i = number j) : i = j := by
  unfold number at h
  split at h <;> split at h
  · have := decimal_inj (List.cons.inj h).2; omega
  · exact absurd (h ▸ List.mem_cons_self) (decimal_minus j.natAbs)
  · exact absurd (h ▸ List.mem_cons_self) (decimal_minus i.natAbs)
  · have := decimal_inj h; omega

/-! ### Reading back -/

/-- nothing follows, or a delimiter -/
def Ends (r : List Char) : Prop := r = [] ∨ ∃ c r', r = c :: r' ∧ delimiter c = true

theorem Ends.of {c : Char} {r : List Char} (h : delimiter c = true := by decide) : Ends (c :: r) := .inr ⟨c, r, rfl, h⟩

theorem word {a b r r' : List Char} (ha : ∀ c ∈ a, delimiter c = false) (hb : ∀ c ∈ b, delimiter c = false) (hr : Ends r) (hr' : Ends r') (h : a ++ r = b ++ r') :
    a = b ∧ r = r' := by
  induction a generalizing b with
  | nil =>
    cases b with
    | nil => exact ⟨rfl, h⟩
    | cons y b =>
      exfalso
      rcases hr with rfl | ⟨c, q, rfl, hc⟩
      · simp at h
      · simp only [List.nil_append, List.cons_append, List.cons.injEq] at h
        have := hb y List.mem_cons_self
        rw [← h.1, hc] at this; cases this
  | cons x a ih =>
    cases b with
    | nil =>
      exfalso
      rcases hr' with rfl | ⟨c, q, rfl, hc⟩
      · simp at h
      · simp only [List.nil_append, List.cons_append, List.cons.injEq] at h
        have := ha x List.mem_cons_self
        rw [h.1, hc] at this; cases this
    | cons y b =>
      simp only [List.cons_append, List.cons.injEq] at h
      obtain ⟨h1, h2⟩ := ih (fun c hc => ha c (List.mem_cons_of_mem _ hc)) (fun c hc => hb c (List.mem_cons_of_mem _ hc)) h.2
      exact ⟨by rw [h.1, h1], h2⟩

/-- `d` can be read back: what follows is not touched, and the value is determined, among those of `P` -/
def Reads {α : Type} (P : α → Prop) (d : α → List Char) : Prop :=
  ∀ v v' r r', P v → P v' → Ends r → Ends r' → d v ++ r = d v' ++ r' → v = v' ∧ r = r'

/-- `d` begins with something that is no closing bracket -/
def Opens {α : Type} (P : α → Prop) (d : α → List Char) : Prop :=
  ∀ v, P v → ∃ c s, d v = c :: s ∧ c ≠ ']' ∧ c ≠ '}'

theorem Reads.inj {α : Type} {P : α → Prop} {d : α → List Char} (h : Reads P d) {v v' : α} (hv : P v) (hv' : P v') (e : d v = d v') : v = v' :=
  (h v v' [] [] hv hv' (.inl rfl) (.inl rfl) (by rw [e])).1

theorem ends_nl (l : Int) {c : Char} {r : List Char} (h : delimiter c = true) : Ends (nl l ++ c :: r) := by
  unfold nl
  split
  · exact .inr ⟨c, r, rfl, h⟩
  · exact .inr ⟨'\n', _, rfl, by decide⟩

theorem ends_sep (l : Int) {r : List Char} : Ends (sep l ++ r) := by
  unfold sep; split
  · exact .inr ⟨':', _, rfl, by decide⟩
  · exact .inr ⟨':', _, rfl, by decide⟩

/-- what comes after an element: another, or the end of the box -/
def rest (l : Int) (c : Char) (ds : List (List Char)) : List Char := (ds.flatMap fun e => ',' :: (nl (next l) ++ e)) ++ nl l ++ [c]

theorem ends_rest (l : Int) (c : Char) (hc : delimiter c = true) (ds : List (List Char)) (r : List Char) : Ends (rest l c ds ++ r) := by
  cases ds with
  | nil =>
    have := ends_nl l (r := r) hc
    unfold rest; simpa using this
  | cons d ds => exact .inr ⟨',', _, rfl, by decide⟩

theorem nl_head (l : Int) (c : Char) (hc : c ≠ ',') (s : List Char) (r : List Char) : nl l ++ c :: r ≠ ',' :: s := by
  unfold nl
  split
  · intro h; exact hc (List.cons.inj h).1
  · intro h; exact absurd (List.cons.inj h).1 (by decide)

theorem reads_rest {α : Type} {P : α → Prop} {d : α → List Char} (hd : Reads P d) (l : Int) (c : Char) (hc : delimiter c = true) (hc' : c ≠ ',') :
    ∀ (vs vs' : List α) (r r' : List Char), (∀ v ∈ vs, P v) → (∀ v ∈ vs', P v) → rest l c (vs.map d) ++ r = rest l c (vs'.map d) ++ r' → vs = vs' ∧ r = r' := by
  intro vs
  induction vs with
  | nil =>
    intro vs' r r' _ hP' h
    cases vs' with
    | nil => exact ⟨rfl, List.append_cancel_left h⟩
    | cons v' vs' =>
      exfalso
      unfold rest at h
      simp only [List.map_nil, List.flatMap_nil, List.nil_append, List.map_cons, List.flatMap_cons, List.cons_append, List.append_assoc] at h
      exact nl_head l c hc' _ r h
  | cons v vs ih =>
    intro vs' r r' hP hP' h
    cases vs' with
    | nil =>
      exfalso
      unfold rest at h
      simp only [List.map_nil, List.flatMap_nil, List.nil_append, List.map_cons, List.flatMap_cons, List.cons_append, List.append_assoc] at h
      exact nl_head l c hc' _ r' h.symm
    | cons v' vs' =>
      have h1 : d v ++ (rest l c (vs.map d) ++ r) = d v' ++ (rest l c (vs'.map d) ++ r') := by
        unfold rest at h ⊢
        simp only [List.map_cons, List.flatMap_cons, List.cons_append, List.append_assoc, List.cons.injEq, true_and] at h ⊢
        exact List.append_cancel_left h
      obtain ⟨h2, h3⟩ := hd _ _ _ _ (hP v List.mem_cons_self) (hP' v' List.mem_cons_self) (ends_rest l c hc _ _) (ends_rest l c hc _ _) h1
      obtain ⟨h4, h5⟩ := ih vs' r r' (fun v hv => hP v (List.mem_cons_of_mem _ hv)) (fun v hv => hP' v (List.mem_cons_of_mem _ hv)) h3
      exact ⟨by rw [h2, h4], h5⟩

theorem box_cons (l : Int) (o c : Char) (d : List Char) (ds : List (List Char)) (r : List Char) :
    box l o c (d :: ds) ++ r = o :: (nl (next l) ++ (d ++ (rest l c ds ++ r))) := by
  unfold box rest; simp [List.append_assoc]

/-- the first line of a box is not its last -/
theorem nl_next (l : Int) (c x : Char) (hx : x ≠ c) (hc : c ≠ ' ') (s r : List Char) : nl l ++ c :: r ≠ nl (next l) ++ (x :: s) := by
  unfold nl next
  by_cases h : l < 0
  · simp only [h, if_true, List.nil_append]
    intro e; exact hx (List.cons.inj e).1.symm
  · have h2 : ¬ l + 1 < 0 := by omega
    simp only [h, if_false, h2]
    have h3 : 2 * (l + 1).toNat = 2 * l.toNat + 2 := by omega
    rw [h3, ← List.replicate_append_replicate]
    intro e
    simp only [List.cons_append, List.cons.injEq, true_and, List.append_assoc] at e
    have e2 := List.append_cancel_left e
    have : (List.replicate 2 ' ' : List Char) = [' ', ' '] := rfl
    rw [this] at e2
    exact hc (List.cons.inj e2).1

theorem reads_box {α : Type} {P : α → Prop} {d : α → List Char} (hd : Reads P d) (ho : Opens P d) (l : Int) (o c : Char) (hc : c = ']' ∨ c = '}') :
    Reads (fun vs : List α => ∀ v ∈ vs, P v) (fun vs => box l o c (vs.map d)) := by
  have hx : ∀ x : Char, x ≠ ']' → x ≠ '}' → x ≠ c := by intro x h1 h2; rcases hc with rfl | rfl <;> assumption
  have hs : c ≠ ' ' := by rcases hc with rfl | rfl <;> decide
  have hde : delimiter c = true := by rcases hc with rfl | rfl <;> decide
  have hco : c ≠ ',' := by rcases hc with rfl | rfl <;> decide
  intro vs vs' r r' hP hP' hr hr' h
  cases vs with
  | nil =>
    cases vs' with
    | nil => exact ⟨rfl, List.append_cancel_left h⟩
    | cons v' vs' =>
      exfalso
      dsimp only at h
      rw [List.map_cons, box_cons] at h
      obtain ⟨x, s, e, h1, h2⟩ := ho v' (hP' v' List.mem_cons_self)
      rw [e] at h
      unfold box at h
      simp only [List.map_nil, List.cons_append, List.append_assoc, List.nil_append, List.cons.injEq, true_and] at h
      exact nl_next l c x (hx x h1 h2) hs _ _ h
  | cons v vs =>
    cases vs' with
    | nil =>
      exfalso
      dsimp only at h
      rw [List.map_cons, box_cons] at h
      obtain ⟨x, s, e, h1, h2⟩ := ho v (hP v List.mem_cons_self)
      rw [e] at h
      unfold box at h
      simp only [List.map_nil, List.cons_append, List.append_assoc, List.nil_append, List.cons.injEq, true_and] at h
      exact nl_next l c x (hx x h1 h2) hs _ _ h.symm
    | cons v' vs' =>
      dsimp only at h
      rw [List.map_cons, List.map_cons, box_cons, box_cons] at h
      have h1 := List.append_cancel_left (List.cons.inj h).2
      obtain ⟨h2, h3⟩ := hd _ _ _ _ (hP v List.mem_cons_self) (hP' v' List.mem_cons_self) (ends_rest l c hde _ _) (ends_rest l c hde _ _) h1
      obtain ⟨h4, h5⟩ := reads_rest hd l c hde hco vs vs' r r' (fun v hv => hP v (List.mem_cons_of_mem _ hv)) (fun v hv => hP' v (List.mem_cons_of_mem _ hv)) h3
      exact ⟨by rw [h2, h4], h5⟩

theorem reads_pair {α β : Type} {P : α → Prop} {Q : β → Prop} {d : α → List Char} {e : β → List Char} (hd : Reads P d) (he : Reads Q e) (l : Int) :
    Reads (fun p : α × β => P p.1 ∧ Q p.2) (fun p => d p.1 ++ sep l ++ e p.2) := by
  intro p p' r r' hP hP' hr hr' h
  simp only [List.append_assoc] at h
  obtain ⟨h1, h2⟩ := hd _ _ _ _ hP.1 hP'.1 (ends_sep l) (ends_sep l) h
  obtain ⟨h3, h4⟩ := he _ _ _ _ hP.2 hP'.2 hr hr' (List.append_cancel_left h2)
  exact ⟨Prod.ext h1 h3, h4⟩

theorem opens_pair {α β : Type} {P : α → Prop} {Q : β → Prop} {d : α → List Char} {e : β → List Char} (hd : Opens P d) (l : Int) :
    Opens (fun p : α × β => P p.1 ∧ Q p.2) (fun p => d p.1 ++ sep l ++ e p.2) := by
  intro p hP
  obtain ⟨c, s, h, h1, h2⟩ := hd p.1 hP.1
  exact ⟨c, s ++ sep l ++ e p.2, by simp only [h, List.cons_append], h1, h2⟩

theorem while_tail (a b : List Char) (ha : ',' ∉ a) : (a ++ ',' :: b).takeWhile (· != ',') = a ∧ (a ++ ',' :: b).dropWhile (· != ',') = ',' :: b := by
  induction a with
  | nil => exact ⟨rfl, rfl⟩
  | cons x a ih =>
    have hx : (x != ',') = true := by
      rw [bne_iff_ne]; intro e; exact ha (e ▸ List.mem_cons_self)
    have := ih (fun h => ha (List.mem_cons_of_mem _ h))
    simp only [List.cons_append, List.takeWhile_cons, List.dropWhile_cons, hx, if_true]
    exact ⟨by rw [this.1], this.2⟩

/-- the comma that is made a blank is the last -/
theorem blankLast_eq (s q : List Char) (hq : ',' ∉ q) : blankLast (s ++ ',' :: q) = s ++ ' ' :: q := by
  unfold blankLast
  have h : (s ++ ',' :: q).reverse = q.reverse ++ ',' :: s.reverse := by simp
  have h2 := while_tail q.reverse s.reverse (by simpa using hq)
  rw [h, h2.1, h2.2]
  simp

theorem comma_nl (l : Int) : ',' ∉ nl l ++ ['}'] := by
  unfold nl; split
  · decide
  · intro h
    simp [List.mem_replicate] at h

/-- members, as they are in the end: the last with a blank -/
def final : (fs : Flds) → Int → Vals fs → List Char
  | .nil, _, _ => []
  | .cons n t .nil, l, vs => nl l ++ n ++ sep l ++ dump t l vs.1 ++ [' ']
  | .cons n t (.cons m u fs), l, vs => nl l ++ n ++ sep l ++ dump t l vs.1 ++ [','] ++ final (.cons m u fs) l vs.2

theorem members_cons (n : List Char) (t : Ty) (fs : Flds) (l : Int) (vs : Vals (.cons n t fs)) :
    members (.cons n t fs) l vs = nl l ++ n ++ sep l ++ dump t l vs.1 ++ [','] ++ members fs l vs.2 := by rw [members]

theorem final_one (n : List Char) (t : Ty) (l : Int) (vs : Vals (.cons n t .nil)) :
    final (.cons n t .nil) l vs = nl l ++ n ++ sep l ++ dump t l vs.1 ++ [' '] := by rw [final]

theorem final_cons (n : List Char) (t : Ty) (m : List Char) (u : Ty) (fs : Flds) (l : Int) (vs : Vals (.cons n t (.cons m u fs))) :
    final (.cons n t (.cons m u fs)) l vs = nl l ++ n ++ sep l ++ dump t l vs.1 ++ [','] ++ final (.cons m u fs) l vs.2 := by rw [final]

theorem dump_bool (l : Int) (b : Bool) : dump .bool l b = if b = true then "true".toList else "false".toList := by cases b <;> simp [dump]

theorem dump_some (t : Ty) (l : Int) (v : Val t) : dump (.ptr t) l (some v : Option (Val t)) = dump t l v := by simp [dump]

theorem members_final (n : List Char) (t : Ty) (fs : Flds) (l : Int) (vs : Vals (.cons n t fs)) :
    ∃ s, members (.cons n t fs) l vs = s ++ [','] ∧ final (.cons n t fs) l vs = s ++ [' '] := by
  match fs with
  | .nil => exact ⟨nl l ++ n ++ sep l ++ dump t l vs.1, by simp [members], by simp [final]⟩
  | .cons m u fs =>
    obtain ⟨s, h1, h2⟩ := members_final m u fs l vs.2
    refine ⟨nl l ++ n ++ sep l ++ dump t l vs.1 ++ [','] ++ s, ?_, ?_⟩
    · rw [members, h1]; simp
    · rw [final, h2]; simp

theorem obj_eq (n : List Char) (t : Ty) (fs : Flds) (l : Int) (vs : Val (.obj n t fs)) :
    dump (.obj n t fs) l vs = ind l ++ ['{'] ++ final (.cons n t fs) (next l) vs ++ nl l ++ ['}'] := by
  obtain ⟨s, h1, h2⟩ := members_final n t fs (next l) vs
  have h3 : dump (.obj n t fs) l vs = blankLast (ind l ++ ['{'] ++ members (.cons n t fs) (next l) vs ++ nl l ++ ['}']) := by
    rw [dump, members_cons n t fs (next l) vs]; simp [List.append_assoc]
  rw [h3, h1, h2]
  have := blankLast_eq (ind l ++ ['{'] ++ s) (nl l ++ ['}']) (comma_nl l)
  simpa [List.append_assoc] using this

theorem opens_word {s : List Char} (h1 : s ≠ []) (h2 : ∀ c ∈ s, delimiter c = false) : ∃ c s', s = c :: s' ∧ c ≠ ']' ∧ c ≠ '}' := by
  cases s with
  | nil => exact absurd rfl h1
  | cons c s =>
    have := h2 c List.mem_cons_self
    exact ⟨c, s, rfl, fun e => by (rw [e] at this; cases this), fun e => by (rw [e] at this; cases this)⟩

theorem opens (t : Ty) (l : Int) : Opens (Plain t) (dump t l) := by
  match t with
  | .bool =>
    intro b _
    have : ∀ x : Bool, ∃ c s, dump .bool l x = c :: s ∧ c ≠ ']' ∧ c ≠ '}' := by
      intro x; rw [dump_bool]; cases x <;> exact opens_word (by decide) (by decide)
    exact this b
  | .int => intro i _; rw [dump]; exact opens_word (number_ne _) (number_plain _)
  | .byte =>
    intro c h
    rw [dump]
    exact opens_word (by simp) (by intro x hx; rw [List.mem_singleton] at hx; rw [hx]; exact h)
  | .enum => intro i _; rw [dump]; exact opens_word (decimal_ne _) (decimal_plain _)
  | .str => intro s h; rw [dump]; exact opens_word h.1 h.2
  | .bits => intro _ h; exact h.elim
  | .list t =>
    intro vs _
    rw [dump]
    unfold box
    split <;> exact ⟨_, _, rfl, by decide, by decide⟩
  | .map k v =>
    intro vs _
    rw [dump]
    unfold box
    split <;> exact ⟨_, _, rfl, by decide, by decide⟩
  | .pair a b =>
    have h := opens_pair (Q := Plain b) (e := dump b l) (opens a l) l
    intro p hp
    rw [dump]
    exact h p hp
  | .ptr t =>
    intro p hp
    obtain ⟨v, e, h⟩ := hp
    have e2 : p = (some v : Option (Val t)) := e
    rw [e2, dump_some]
    exact opens t l v h
  | .variant _ _ => intro _ h; exact h.elim
  | .tuple fs => intro vs _; rw [dump]; exact ⟨_, _, rfl, by decide, by decide⟩
  | .obj n t fs =>
    intro vs _
    rw [obj_eq]
    unfold ind
    split
    · exact ⟨_, _, rfl, by decide, by decide⟩
    · cases 2 * l.toNat with
      | zero => exact ⟨_, _, rfl, by decide, by decide⟩
      | succ k => exact ⟨_, _, rfl, by decide, by decide⟩

theorem reads_word {α : Type} {P : α → Prop} {d : α → List Char} (h1 : ∀ v, P v → ∀ c ∈ d v, delimiter c = false) (h2 : ∀ v v', P v → P v' → d v = d v' → v = v') : Reads P d := by
  intro v v' r r' hv hv' hr hr' h
  obtain ⟨h3, h4⟩ := word (h1 v hv) (h1 v' hv') hr hr' h
  exact ⟨h2 v v' hv hv' h3, h4⟩

mutual
theorem reads : (t : Ty) → (l : Int) → Reads (Plain t) (dump t l)
  | .bool, l => reads_word
      (by
        intro b _
        have : ∀ x : Bool, ∀ c ∈ dump .bool l x, delimiter c = false := by intro x; rw [dump_bool]; cases x <;> decide
        exact this b)
      (by
        intro b b' _ _ h
        have : ∀ x y : Bool, dump .bool l x = dump .bool l y → x = y := by
          intro x y; cases x <;> cases y <;> simp [dump]
        exact this b b' h)
  | .int, l => reads_word (by intro i _; rw [dump]; exact number_plain _) (by intro i j _ _ h; rw [dump, dump] at h; exact number_inj h)
  | .byte, l => reads_word
      (by intro c h x hx; rw [dump, List.mem_singleton] at hx; rw [hx]; exact h)
      (by intro c c' _ _ h; rw [dump, dump] at h; exact (List.cons.inj h).1)
  | .enum, l => reads_word
      (by intro i _; rw [dump]; exact decimal_plain _)
      (by
        intro i j hi hj h
        rw [dump, dump] at h
        have h2 := decimal_inj h
        have h3 : (0 : Int) ≤ (show Int from i) ∧ (show Int from i) < 4294967296 := hi
        have h4 : (0 : Int) ≤ (show Int from j) ∧ (show Int from j) < 4294967296 := hj
        have : ∀ x y : Int, 0 ≤ x ∧ x < 4294967296 → 0 ≤ y ∧ y < 4294967296 → (x % 4294967296).toNat = (y % 4294967296).toNat → x = y := by
          intro x y hx hy e
          rw [Int.emod_eq_of_lt hx.1 hx.2, Int.emod_eq_of_lt hy.1 hy.2] at e
          omega
        exact this i j h3 h4 h2)
  | .str, l => reads_word (by intro s h; rw [dump]; exact h.2) (by intro s s' _ _ h; rw [dump, dump] at h; exact h)
  | .bits, l => by intro _ _ _ _ h; exact h.elim
  | .list t, l => by
    have h := reads_box (reads t (next l)) (opens t (next l)) l '[' ']' (.inl rfl)
    intro v v' r r' hv hv' hr hr' e
    rw [dump, dump] at e
    exact h v v' r r' hv hv' hr hr' e
  | .map k v, l => by
    have h := reads_box (reads_pair (reads k (next l)) (reads v (next l)) (next l)) (opens_pair (Q := Plain v) (e := dump v (next l)) (opens k (next l)) (next l)) l '{' '}' (.inr rfl)
    intro v v' r r' hv hv' hr hr' e
    rw [dump, dump] at e
    exact h v v' r r' hv hv' hr hr' e
  | .pair a b, l => by
    have h := reads_pair (reads a l) (reads b l) l
    intro v v' r r' hv hv' hr hr' e
    rw [dump, dump] at e
    exact h v v' r r' hv hv' hr hr' e
  | .ptr t, l => by
    intro p p' r r' hp hp' hr hr' e
    obtain ⟨v, h1, h2⟩ := hp
    obtain ⟨v', h1', h2'⟩ := hp'
    have e1 : p = (some v : Option (Val t)) := h1
    have e2 : p' = (some v' : Option (Val t)) := h1'
    subst e1 e2
    rw [dump_some, dump_some] at e
    obtain ⟨h3, h4⟩ := reads t l v v' r r' h2 h2' hr hr' e
    exact ⟨congrArg some h3, h4⟩
  | .variant _ _, l => by intro _ _ _ _ h; exact h.elim
  | .tuple fs, l => by
    intro v v' r r' hv hv' hr hr' e
    rw [dump, dump] at e
    simp only [List.cons_append, List.append_assoc, List.cons.injEq, true_and, List.nil_append] at e
    obtain ⟨h1, h2⟩ := readElems fs (next l) v v' (nl l ++ (']' :: r)) (nl l ++ (']' :: r')) hv hv' (ends_nl l (by decide)) (ends_nl l (by decide)) e
    exact ⟨h1, (List.cons.inj (List.append_cancel_left h2)).2⟩
  | .obj n t .nil, l => by
    intro v v' r r' hv hv' hr hr' e
    rw [obj_eq, obj_eq] at e
    simp only [List.cons_append, List.append_assoc, List.nil_append] at e
    have e2 := (List.cons.inj (List.append_cancel_left e)).2
    rw [final_one n t (next l) v, final_one n t (next l) v'] at e2
    simp only [List.cons_append, List.append_assoc, List.nil_append] at e2
    have e3 := List.append_cancel_left (List.append_cancel_left (List.append_cancel_left e2))
    obtain ⟨h1, h2⟩ := reads t (next l) v.1 v'.1 _ _ hv.1 hv'.1 (Ends.of) (Ends.of) e3
    exact ⟨Prod.ext h1 rfl, (List.cons.inj (List.append_cancel_left (List.cons.inj h2).2)).2⟩
  | .obj n t (.cons m u fs), l => by
    intro v v' r r' hv hv' hr hr' e
    rw [obj_eq, obj_eq] at e
    simp only [List.cons_append, List.append_assoc, List.nil_append] at e
    have e2 := (List.cons.inj (List.append_cancel_left e)).2
    rw [final_cons n t m u fs (next l) v, final_cons n t m u fs (next l) v'] at e2
    simp only [List.cons_append, List.append_assoc, List.nil_append] at e2
    have e3 := List.append_cancel_left (List.append_cancel_left (List.append_cancel_left e2))
    obtain ⟨h1, h2⟩ := reads t (next l) v.1 v'.1 _ _ hv.1 hv'.1 (Ends.of) (Ends.of) e3
    obtain ⟨h3, h4⟩ := readFinal (.cons m u fs) (next l) v.2 v'.2 _ _ hv.2 hv'.2 (List.cons.inj h2).2
    exact ⟨Prod.ext h1 h3, (List.cons.inj (List.append_cancel_left h4)).2⟩
theorem readElems : (fs : Flds) → (l : Int) → Reads (Plains fs) (elems fs l)
  | .nil, l => by intro v v' r r' _ _ _ _ e; exact ⟨rfl, e⟩
  | .cons n t .nil, l => by
    intro v v' r r' hv hv' hr hr' e
    rw [elems, elems] at e
    simp only [List.append_assoc] at e
    obtain ⟨h1, h2⟩ := reads t l v.1 v'.1 r r' hv.1 hv'.1 hr hr' (List.append_cancel_left e)
    exact ⟨Prod.ext h1 rfl, h2⟩
  | .cons n t (.cons m u fs), l => by
    intro v v' r r' hv hv' hr hr' e
    rw [elems, elems] at e
    simp only [List.append_assoc, List.cons_append, List.nil_append] at e
    obtain ⟨h1, h2⟩ := reads t l v.1 v'.1 _ _ hv.1 hv'.1 (Ends.of) (Ends.of) (List.append_cancel_left e)
    obtain ⟨h3, h4⟩ := readElems (.cons m u fs) l v.2 v'.2 r r' hv.2 hv'.2 hr hr' (List.cons.inj h2).2
    exact ⟨Prod.ext h1 h3, h4⟩
theorem readFinal : (fs : Flds) → (l : Int) → ∀ v v' r r', Plains fs v → Plains fs v' → final fs l v ++ r = final fs l v' ++ r' → v = v' ∧ r = r'
  | .nil, l => by intro v v' r r' _ _ e; exact ⟨rfl, e⟩
  | .cons n t .nil, l => by
    intro v v' r r' hv hv' e
    rw [final, final] at e
    simp only [List.append_assoc, List.cons_append, List.nil_append] at e
    have e3 := List.append_cancel_left (List.append_cancel_left (List.append_cancel_left e))
    obtain ⟨h1, h2⟩ := reads t l v.1 v'.1 _ _ hv.1 hv'.1 (Ends.of) (Ends.of) e3
    exact ⟨Prod.ext h1 rfl, (List.cons.inj h2).2⟩
  | .cons n t (.cons m u fs), l => by
    intro v v' r r' hv hv' e
    rw [final, final] at e
    simp only [List.append_assoc, List.cons_append, List.nil_append] at e
    have e3 := List.append_cancel_left (List.append_cancel_left (List.append_cancel_left e))
    obtain ⟨h1, h2⟩ := reads t l v.1 v'.1 _ _ hv.1 hv'.1 (Ends.of) (Ends.of) e3
    obtain ⟨h3, h4⟩ := readFinal (.cons m u fs) l v.2 v'.2 r r' hv.2 hv'.2 (List.cons.inj h2).2
    exact ⟨Prod.ext h1 h3, h4⟩
end

/-- **C99, in part.** Two values with the same text at the same level are equal, if they are plain (missing: strings with delimiters or empty, null pointers, variants,
vectors of `bool`, enumerators beyond 32 bits). -/
theorem text_determines_partial (t : Ty) (l : Int) {v v' : Val t} (hv : Plain t v) (hv' : Plain t v') (h : dump t l v = dump t l v') : v = v' :=
  (reads t l).inj hv hv' h

/-- A type with everything, and a plain value of it. -/
def sampleTy : Ty := .obj "id".toList .int (.cons "tags".toList (.map .str (.list (.pair .bool .enum))) (.cons "at".toList (.tuple (.cons [] (.ptr .int) (.cons [] .byte .nil))) .nil))
def sample (k : Int) : Val sampleTy := ((k : Int), ([("red".toList, [(true, (7 : Int)), (false, (4294967295 : Int))]), ("b".toList, [])], (((some (-12 : Int) : Option Int), ('x', ())), ())))

/-- The hypotheses are met. -/
example (k : Int) : Plain sampleTy (sample k) := by
  simp only [sampleTy, sample, Plain, Plains, delimiter]
  refine ⟨trivial, ?_, ⟨⟨(-12 : Int), rfl, trivial⟩, by decide, trivial⟩, trivial⟩
  have : ∀ p ∈ ([("red".toList, [(true, (7 : Int)), (false, (4294967295 : Int))]), ("b".toList, [])] : List (List Char × List (Bool × Int))),
      (p.1 ≠ [] ∧ ∀ c ∈ p.1, delimiter c = false) ∧ ∀ v ∈ p.2, True ∧ 0 ≤ v.2 ∧ v.2 < 4294967296 := by decide
  exact this

example : String.ofList (dump sampleTy (-1) (sample 5)) = "{id:5,tags:{red:[true:7,false:4294967295],b:[]},at:[-12,x] }" := by decide +kernel
example : String.ofList (dump sampleTy 0 (sample 5)) =
    "{\n  id: 5,\n  tags: {\n    red: [\n      true: 7,\n      false: 4294967295\n    ],\n    b: [\n    ]\n  },\n  at: [\n    -12,\n    x\n  ] \n}" := by decide +kernel

/-! ### What the text looks like -/

mutual
/-- the characters the user put in, in strings, characters and names, are all of `q` -/
def Calm (q : Char → Prop) : (t : Ty) → Val t → Prop
  | .bool, _ => True
  | .int, _ => True
  | .byte, c => q c
  | .enum, _ => True
  | .str, s => ∀ c ∈ (show List Char from s), q c
  | .bits, _ => True
  | .list t, vs => ∀ v ∈ (show List (Val t) from vs), Calm q t v
  | .map k v, ps => ∀ p ∈ (show List (Val k × Val v) from ps), Calm q k p.1 ∧ Calm q v p.2
  | .pair a b, p => Calm q a p.1 ∧ Calm q b p.2
  | .ptr t, p => match (show Option (Val t) from p) with
    | some v => Calm q t v
    | none => Calm q t (dflt t)
  | .variant a b, x => match (show Val a ⊕ Val b from x) with
    | .inl v => Calm q a v
    | .inr v => Calm q b v
  | .tuple fs, vs => Calms q fs vs
  | .obj n t fs, vs => (∀ c ∈ n, q c) ∧ Calm q t vs.1 ∧ Calms q fs vs.2
def Calms (q : Char → Prop) : (fs : Flds) → Vals fs → Prop
  | .nil, _ => True
  | .cons n t fs, vs => (∀ c ∈ n, q c) ∧ Calm q t vs.1 ∧ Calms q fs vs.2
end

/-- brackets and new lines -/
def mark (c : Char) : Bool := c == '[' || c == ']' || c == '{' || c == '}' || c == '\n'

/-- A property of texts that is kept by writing side by side, by brackets and by the new lines of the levels `L`. -/
structure Kept (q : Char → Prop) (L : Int → Prop) (C : List Char → Prop) : Prop where
  nil : C []
  app : ∀ a b, C a → C b → C (a ++ b)
  user : ∀ c, q c → C [c]
  own : ∀ c, mark c = false → C [c]
  square : ∀ s, C s → C ('[' :: (s ++ [']']))
  curly : ∀ s, C s → C ('{' :: (s ++ ['}']))
  line : ∀ l, L l → C (nl l)
  next : ∀ l, L l → L (next l)

namespace Kept

variable {q : Char → Prop} {L : Int → Prop} {C : List Char → Prop} (K : Kept q L C)
include K

theorem chars (p : Char → Prop) (h : ∀ c, p c → C [c]) : ∀ s : List Char, (∀ c ∈ s, p c) → C s
  | [], _ => K.nil
  | c :: s, hs => K.app [c] s (h c (hs c List.mem_cons_self)) (chars p h s fun x hx => hs x (List.mem_cons_of_mem _ hx))

theorem owns (s : List Char) (h : ∀ c ∈ s, mark c = false) : C s := K.chars (fun c => mark c = false) K.own s h
theorem users (s : List Char) (h : ∀ c ∈ s, q c) : C s := K.chars q K.user s h

theorem seps (l : Int) : C (sep l) := by
  unfold sep; split <;> exact K.owns _ (by decide)

theorem inds (l : Int) : C (ind l) := by
  unfold ind; split
  · exact K.nil
  · exact K.owns _ (by intro c hc; rw [(List.mem_replicate.mp hc).2]; decide)

theorem word {s : List Char} (h : ∀ c ∈ s, ∃ k, k < 10 ∧ c = digit k) : C s := by
  refine K.owns s fun c hc => ?_
  obtain ⟨k, hk, rfl⟩ := h c hc
  rcases k with _|_|_|_|_|_|_|_|_|_|k <;> first | decide | omega

theorem boxes {l : Int} (hl : L l) (ds : List (List Char)) (h : ∀ d ∈ ds, C d) : ∃ s, C s ∧ ∀ o c, box l o c ds = o :: (s ++ [c]) := by
  cases ds with
  | nil => exact ⟨nl l, K.line l hl, fun o c => rfl⟩
  | cons d ds =>
    refine ⟨nl (Dump.next l) ++ d ++ (ds.flatMap fun e => ',' :: (nl (Dump.next l) ++ e)) ++ nl l, ?_, fun o c => by simp [box, List.append_assoc]⟩
    refine K.app _ _ (K.app _ _ (K.app _ _ (K.line _ (K.next l hl)) (h d List.mem_cons_self)) ?_) (K.line l hl)
    have h2 : ∀ e ∈ ds, C e := fun e he => h e (List.mem_cons_of_mem _ he)
    clear h
    induction ds with
    | nil => exact K.nil
    | cons e ds ih =>
      rw [List.flatMap_cons]
      refine K.app _ _ ?_ (ih fun e he => h2 e (List.mem_cons_of_mem _ he))
      exact K.app [','] _ (K.own _ (by decide)) (K.app _ _ (K.line _ (K.next l hl)) (h2 e List.mem_cons_self))

omit K in
theorem maps {α : Type} {d : α → List Char} {vs : List α} (h : ∀ v ∈ vs, C (d v)) : ∀ s ∈ vs.map d, C s := by
  intro s hs
  obtain ⟨v, hv, rfl⟩ := List.mem_map.mp hs
  exact h v hv

end Kept

theorem dump_none (t : Ty) (l : Int) : dump (.ptr t) l (none : Option (Val t)) = dump t l (dflt t) := by simp [dump]
theorem dump_inl (a b : Ty) (l : Int) (v : Val a) : dump (.variant a b) l (.inl v : Val a ⊕ Val b) = dump a l v := by simp [dump]
theorem dump_inr (a b : Ty) (l : Int) (v : Val b) : dump (.variant a b) l (.inr v : Val a ⊕ Val b) = dump b l v := by simp [dump]

mutual
theorem kept {q : Char → Prop} {L : Int → Prop} {C : List Char → Prop} (K : Kept q L C) : (t : Ty) → (l : Int) → L l → (v : Val t) → Calm q t v → C (dump t l v)
  | .bool, l, _, v, _ => by
    have : ∀ x : Bool, C (dump .bool l x) := by intro x; rw [dump_bool]; cases x <;> exact K.owns _ (by decide)
    exact this v
  | .int, l, _, v, _ => by
    rw [dump]; unfold number
    split
    · exact K.app ['-'] _ (K.own _ (by decide)) (K.word (decimal_digits _))
    · exact K.word (decimal_digits _)
  | .byte, l, _, v, h => by rw [dump]; exact K.user _ h
  | .enum, l, _, v, _ => by rw [dump]; exact K.word (decimal_digits _)
  | .str, l, _, v, h => by rw [dump]; exact K.users _ h
  | .bits, l, hl, v, _ => by
    rw [dump]
    obtain ⟨s, h1, h2⟩ := K.boxes hl ((show List Bool from v).map fun _ => unsupported) (Kept.maps fun _ _ => K.owns _ (by decide +kernel))
    rw [h2]; exact K.square s h1
  | .list t, l, hl, vs, h => by
    rw [dump]
    obtain ⟨s, h1, h2⟩ := K.boxes hl ((show List (Val t) from vs).map fun v => dump t (next l) v) (Kept.maps fun v hv => kept K t (next l) (K.next l hl) v (h v hv))
    rw [h2]; exact K.square s h1
  | .map k u, l, hl, ps, h => by
    rw [dump]
    obtain ⟨s, h1, h2⟩ := K.boxes hl ((show List (Val k × Val u) from ps).map fun p => dump k (next l) p.1 ++ sep (next l) ++ dump u (next l) p.2)
      (Kept.maps fun p hp => K.app _ _ (K.app _ _ (kept K k (next l) (K.next l hl) p.1 (h p hp).1) (K.seps _)) (kept K u (next l) (K.next l hl) p.2 (h p hp).2))
    rw [h2]; exact K.curly s h1
  | .pair a b, l, hl, p, h => by
    rw [dump]
    exact K.app _ _ (K.app _ _ (kept K a l hl p.1 h.1) (K.seps _)) (kept K b l hl p.2 h.2)
  | .ptr t, l, hl, p, h => by
    have h1 : ∀ v : Val t, Calm q (.ptr t) (some v : Option (Val t)) → C (dump (.ptr t) l (some v : Option (Val t))) := by
      intro v hv; rw [dump_some]; exact kept K t l hl v hv
    have h2 : Calm q (.ptr t) (none : Option (Val t)) → C (dump (.ptr t) l (none : Option (Val t))) := by
      intro hv; rw [dump_none]; exact kept K t l hl (dflt t) hv
    have h3 : ∀ p : Option (Val t), Calm q (.ptr t) p → C (dump (.ptr t) l p) := by
      intro p; cases p with
      | none => exact h2
      | some v => exact h1 v
    exact h3 p h
  | .variant a b, l, hl, x, h => by
    have h1 : ∀ v : Val a, Calm q (.variant a b) (.inl v : Val a ⊕ Val b) → C (dump (.variant a b) l (.inl v : Val a ⊕ Val b)) := by
      intro v hv; rw [dump_inl]; exact kept K a l hl v hv
    have h2 : ∀ v : Val b, Calm q (.variant a b) (.inr v : Val a ⊕ Val b) → C (dump (.variant a b) l (.inr v : Val a ⊕ Val b)) := by
      intro v hv; rw [dump_inr]; exact kept K b l hl v hv
    have h3 : ∀ x : Val a ⊕ Val b, Calm q (.variant a b) x → C (dump (.variant a b) l x) := by
      intro x; cases x with
      | inl v => exact h1 v
      | inr v => exact h2 v
    exact h3 x h
  | .tuple fs, l, hl, vs, h => by
    rw [dump]
    exact K.square _ (K.app _ _ (keptElems K fs (next l) (K.next l hl) vs h) (K.line l hl))
  | .obj n t fs, l, hl, vs, h => by
    rw [obj_eq]
    have h1 : C (final (.cons n t fs) (next l) vs) := by
      have h2 := kept K t (next l) (K.next l hl) vs.1 h.2.1
      have h3 : C (nl (next l) ++ n ++ sep (next l) ++ dump t (next l) vs.1) :=
        K.app _ _ (K.app _ _ (K.app _ _ (K.line _ (K.next l hl)) (K.users n h.1)) (K.seps _)) h2
      cases fs with
      | nil => rw [final_one n t (next l) vs]; exact K.app _ _ h3 (K.own _ (by decide))
      | cons m u fs =>
        rw [final_cons n t m u fs (next l) vs]
        exact K.app _ _ (K.app _ _ h3 (K.own _ (by decide))) (keptFinal K (.cons m u fs) (next l) (K.next l hl) vs.2 h.2.2)
    have := K.app _ _ (K.inds l) (K.curly _ (K.app _ _ h1 (K.line l hl)))
    simpa [List.append_assoc] using this
theorem keptElems {q : Char → Prop} {L : Int → Prop} {C : List Char → Prop} (K : Kept q L C) : (fs : Flds) → (l : Int) → L l → (v : Vals fs) → Calms q fs v → C (elems fs l v)
  | .nil, l, _, v, _ => K.nil
  | .cons n t .nil, l, hl, v, h => by
    rw [elems]; exact K.app _ _ (K.line l hl) (kept K t l hl v.1 h.2.1)
  | .cons n t (.cons m u fs), l, hl, v, h => by
    rw [elems]
    exact K.app _ _ (K.app _ _ (K.app _ _ (K.line l hl) (kept K t l hl v.1 h.2.1)) (K.own _ (by decide))) (keptElems K (.cons m u fs) l hl v.2 h.2.2)
theorem keptFinal {q : Char → Prop} {L : Int → Prop} {C : List Char → Prop} (K : Kept q L C) : (fs : Flds) → (l : Int) → L l → (v : Vals fs) → Calms q fs v → C (final fs l v)
  | .nil, l, _, v, _ => K.nil
  | .cons n t .nil, l, hl, v, h => by
    rw [final]
    exact K.app _ _ (K.app _ _ (K.app _ _ (K.app _ _ (K.line _ hl) (K.users n h.1)) (K.seps _)) (kept K t l hl v.1 h.2.1)) (K.own _ (by decide))
  | .cons n t (.cons m u fs), l, hl, v, h => by
    rw [final]
    exact K.app _ _ (K.app _ _ (K.app _ _ (K.app _ _ (K.app _ _ (K.line _ hl) (K.users n h.1)) (K.seps _)) (kept K t l hl v.1 h.2.1)) (K.own _ (by decide)))
      (keptFinal K (.cons m u fs) l hl v.2 h.2.2)
end

/-- **C99.** A compact text (negative level) is one line, if no string, character or name has a new line. -/
theorem compact_one_line (t : Ty) {l : Int} (hl : l < 0) (v : Val t) (h : Calm (· ≠ '\n') t v) : '\n' ∉ dump t l v := by
  refine kept (q := (· ≠ '\n')) (L := (· < 0)) (C := fun s => '\n' ∉ s) ⟨by simp, ?_, ?_, ?_, ?_, ?_, ?_, ?_⟩ t l hl v h
  · intro a b ha hb hm; rcases List.mem_append.mp hm with h | h
    · exact ha h
    · exact hb h
  · intro c hc hm; exact hc (List.mem_singleton.mp hm).symm
  · intro c hc hm
    rw [← List.mem_singleton.mp hm] at hc; cases hc
  · intro s hs hm; simp at hm; exact hs hm
  · intro s hs hm; simp at hm; exact hs hm
  · intro l hl; unfold nl; rw [if_pos hl]; simp
  · intro l hl; unfold next; rw [if_pos hl]; exact hl

/-- text whose brackets are closed in turn, each by its own kind -/
inductive Nested : List Char → Prop where
  | nil : Nested []
  | other (c : Char) (s : List Char) : mark c = false ∨ c = '\n' → Nested s → Nested (c :: s)
  | square (s r : List Char) : Nested s → Nested r → Nested ('[' :: (s ++ ']' :: r))
  | curly (s r : List Char) : Nested s → Nested r → Nested ('{' :: (s ++ '}' :: r))

theorem Nested.app {a b : List Char} (ha : Nested a) (hb : Nested b) : Nested (a ++ b) := by
  induction ha with
  | nil => exact hb
  | other c s hc _ ih => exact .other c _ hc ih
  | square s r hs _ _ ih => have := Nested.square s (r ++ b) hs ih; simpa [List.append_assoc] using this
  | curly s r hs _ _ ih => have := Nested.curly s (r ++ b) hs ih; simpa [List.append_assoc] using this

/-- **C99.** The brackets of a text are nested, if no string, character or name has one. -/
theorem brackets_nested (t : Ty) (l : Int) (v : Val t) (h : Calm (fun c => mark c = false ∨ c = '\n') t v) : Nested (dump t l v) := by
  refine kept (L := fun _ => True) (C := Nested) ⟨.nil, fun a b ha hb => ha.app hb, fun c hc => .other c [] hc .nil, fun c hc => .other c [] (.inl hc) .nil,
    fun s hs => .square s [] hs .nil, fun s hs => .curly s [] hs .nil, ?_, fun _ _ => trivial⟩ t l trivial v h
  intro l _
  unfold nl
  split
  · exact .nil
  · refine .other _ _ (.inr rfl) ?_
    generalize 2 * l.toNat = n
    induction n with
    | zero => exact .nil
    | succ n ih => exact .other _ _ (.inl (by decide)) ih

/-- every line after the first begins with `k` blanks -/
def Indented (k : Nat) (s : List Char) : Prop := ∀ a b, s = a ++ '\n' :: b → ∃ b', b = List.replicate k ' ' ++ b'

theorem Indented.app {k : Nat} {s r : List Char} (hs : Indented k s) (hr : Indented k r) : Indented k (s ++ r) := by
  intro a b h
  rcases List.append_eq_append_iff.mp h with ⟨x, h1, h2⟩ | ⟨x, h1, h2⟩
  · obtain ⟨b', e⟩ := hr x b h2
    exact ⟨b', e⟩
  · cases x with
    | nil =>
      rw [List.nil_append] at h2
      obtain ⟨b', e⟩ := hr [] b h2.symm
      exact ⟨b', e⟩
    | cons y x =>
      rw [List.cons_append, List.cons.injEq] at h2
      obtain ⟨b', e⟩ := hs a x (by rw [h1, ← h2.1])
      exact ⟨b' ++ r, by rw [h2.2, e, List.append_assoc]⟩

theorem Indented.free {k : Nat} {s : List Char} (h : '\n' ∉ s) : Indented k s := by
  intro a b e
  exact absurd (by rw [e]; simp) h

/-- **C99.** In an indented text every line after the first has at least the blanks of its level, if no string, character or name has a new line. -/
theorem lines_indented (t : Ty) {l : Int} (hl : 0 ≤ l) (v : Val t) (h : Calm (· ≠ '\n') t v) : Indented (2 * l.toNat) (dump t l v) := by
  have hb : ∀ c : Char, c ≠ '\n' → Indented (2 * l.toNat) [c] := fun c hc => .free (by intro hm; exact hc (List.mem_singleton.mp hm).symm)
  refine kept (q := (· ≠ '\n')) (L := (l ≤ ·)) ⟨.free (by simp), fun a b => Indented.app, hb, ?_, ?_, ?_, ?_, ?_⟩ t l (Int.le_refl l) v h
  · intro c hc; exact hb c (fun e => by rw [e] at hc; cases hc)
  · intro s hs
    exact Indented.app (s := ['[']) (hb _ (by decide)) (hs.app (hb _ (by decide)))
  · intro s hs
    exact Indented.app (s := ['{']) (hb _ (by decide)) (hs.app (hb _ (by decide)))
  · intro m hm
    have hm2 : l ≤ m := hm
    unfold nl
    rw [if_neg (by omega)]
    intro a b e
    cases a with
    | nil =>
      have e2 := (List.cons.inj e).2
      refine ⟨List.replicate (2 * m.toNat - 2 * l.toNat) ' ', ?_⟩
      rw [← e2, List.replicate_append_replicate]
      congr 1; omega
    | cons x a =>
      have e2 := (List.cons.inj e).2
      have : '\n' ∈ List.replicate (2 * m.toNat) ' ' := by rw [e2]; simp
      exact absurd (List.mem_replicate.mp this).2 (by decide)
  · intro m hm
    have hm2 : l ≤ m := hm
    show l ≤ next m
    unfold next; split <;> omega

/-- The hypotheses are met. -/
example (k : Int) : Calm (· ≠ '\n') sampleTy (sample k) ∧ Calm (fun c => mark c = false ∨ c = '\n') sampleTy (sample k) := by
  constructor <;> simp [sampleTy, sample, Calm, Calms, mark]

/-- without blanks and new lines -/
def tight (s : List Char) : List Char := s.filter fun c => c != ' ' && c != '\n'

theorem tight_app (a b : List Char) : tight (a ++ b) = tight a ++ tight b := List.filter_append ..
theorem tight_nl (l : Int) : tight (nl l) = [] := by
  unfold nl tight; split
  · rfl
  · rw [List.filter_eq_nil_iff]
    intro c hc
    rcases List.mem_cons.mp hc with rfl | hc
    · decide
    · rw [(List.mem_replicate.mp hc).2]; decide
theorem tight_ind (l : Int) : tight (ind l) = [] := by
  unfold ind tight; split
  · rfl
  · rw [List.filter_eq_nil_iff]
    intro c hc
    rw [(List.mem_replicate.mp hc).2]; decide
theorem tight_sep (l : Int) : tight (sep l) = [':'] := by unfold sep tight; split <;> rfl

theorem tight_box {l m : Int} {o c : Char} {α : Type} (d e : α → List Char) (vs : List α) (h : ∀ v ∈ vs, tight (d v) = tight (e v)) :
    tight (box l o c (vs.map d)) = tight (box m o c (vs.map e)) := by
  cases vs with
  | nil =>
    show tight ([o] ++ (nl l ++ [c])) = tight ([o] ++ (nl m ++ [c]))
    simp only [tight_app, tight_nl]
  | cons v vs =>
    show tight ([o] ++ (nl (next l) ++ d v ++ ((vs.map d).flatMap fun x => [','] ++ (nl (next l) ++ x)) ++ nl l ++ [c])) =
      tight ([o] ++ (nl (next m) ++ e v ++ ((vs.map e).flatMap fun x => [','] ++ (nl (next m) ++ x)) ++ nl m ++ [c]))
    have h3 : tight ((vs.map d).flatMap fun x => [','] ++ (nl (next l) ++ x)) = tight ((vs.map e).flatMap fun x => [','] ++ (nl (next m) ++ x)) := by
      have h2 : ∀ v ∈ vs, tight (d v) = tight (e v) := fun x hx => h x (List.mem_cons_of_mem _ hx)
      clear h
      induction vs with
      | nil => rfl
      | cons w vs ih =>
        simp only [List.map_cons, List.flatMap_cons]
        rw [tight_app, tight_app, ih fun x hx => h2 x (List.mem_cons_of_mem _ hx)]
        congr 1
        simp only [tight_app, tight_nl]
        rw [h2 w List.mem_cons_self]
    simp only [tight_app] at h3 ⊢
    simp only [tight_nl, h v List.mem_cons_self, h3]

mutual
theorem tight_dump : (t : Ty) → (l m : Int) → (v : Val t) → tight (dump t l v) = tight (dump t m v)
  | .bool, l, m, v => by
    have : ∀ x : Bool, tight (dump .bool l x) = tight (dump .bool m x) := by intro x; rw [dump_bool, dump_bool]
    exact this v
  | .int, l, m, v => by rw [dump, dump]
  | .byte, l, m, v => by rw [dump, dump]
  | .enum, l, m, v => by rw [dump, dump]
  | .str, l, m, v => by rw [dump, dump]
  | .bits, l, m, v => by rw [dump, dump]; exact tight_box _ _ _ fun _ _ => rfl
  | .list t, l, m, vs => by rw [dump, dump]; exact tight_box _ _ _ fun v _ => tight_dump t _ _ v
  | .map k u, l, m, ps => by
    rw [dump, dump]
    refine tight_box _ _ _ fun p _ => ?_
    rw [tight_app, tight_app, tight_app, tight_app, tight_sep, tight_sep, tight_dump k (next l) (next m) p.1, tight_dump u (next l) (next m) p.2]
  | .pair a b, l, m, p => by
    rw [dump, dump, tight_app, tight_app, tight_app, tight_app, tight_sep, tight_sep, tight_dump a l m p.1, tight_dump b l m p.2]
  | .ptr t, l, m, p => by
    have h3 : ∀ p : Option (Val t), tight (dump (.ptr t) l p) = tight (dump (.ptr t) m p) := by
      intro p; cases p with
      | none => rw [dump_none, dump_none]; exact tight_dump t l m _
      | some v => rw [dump_some, dump_some]; exact tight_dump t l m v
    exact h3 p
  | .variant a b, l, m, x => by
    have h3 : ∀ x : Val a ⊕ Val b, tight (dump (.variant a b) l x) = tight (dump (.variant a b) m x) := by
      intro x; cases x with
      | inl v => rw [dump_inl, dump_inl]; exact tight_dump a l m _
      | inr v => rw [dump_inr, dump_inr]; exact tight_dump b l m v
    exact h3 x
  | .tuple fs, l, m, vs => by
    rw [dump, dump]
    show tight (['['] ++ (elems fs (next l) vs ++ nl l ++ [']'])) = tight (['['] ++ (elems fs (next m) vs ++ nl m ++ [']']))
    simp only [tight_app, tight_nl]
    rw [tight_elems fs (next l) (next m) vs]
  | .obj n t fs, l, m, vs => by
    rw [obj_eq, obj_eq]
    simp only [tight_app, tight_nl, tight_ind]
    have h1 : tight (final (.cons n t fs) (next l) vs) = tight (final (.cons n t fs) (next m) vs) := by
      have h2 := tight_dump t (next l) (next m) vs.1
      cases fs with
      | nil => rw [final_one n t (next l) vs, final_one n t (next m) vs]; simp only [tight_app, tight_nl, tight_sep, h2]
      | cons k u fs =>
        rw [final_cons n t k u fs (next l) vs, final_cons n t k u fs (next m) vs]
        simp only [tight_app, tight_nl, tight_sep, h2]
        rw [tight_final (.cons k u fs) (next l) (next m) vs.2]
    rw [h1]
theorem tight_elems : (fs : Flds) → (l m : Int) → (v : Vals fs) → tight (elems fs l v) = tight (elems fs m v)
  | .nil, l, m, v => rfl
  | .cons n t .nil, l, m, v => by
    rw [elems, elems, tight_app, tight_app, tight_nl, tight_nl, tight_dump t l m v.1]
  | .cons n t (.cons k u fs), l, m, v => by
    rw [elems, elems]
    simp only [tight_app, tight_nl]
    rw [tight_dump t l m v.1, tight_elems (.cons k u fs) l m v.2]
theorem tight_final : (fs : Flds) → (l m : Int) → (v : Vals fs) → tight (final fs l v) = tight (final fs m v)
  | .nil, l, m, v => rfl
  | .cons n t .nil, l, m, v => by
    rw [final, final]
    simp only [tight_app, tight_nl, tight_sep]
    rw [tight_dump t l m v.1]
  | .cons n t (.cons k u fs), l, m, v => by
    rw [final, final]
    simp only [tight_app, tight_nl, tight_sep]
    rw [tight_dump t l m v.1, tight_final (.cons k u fs) l m v.2]
end

/-- **C99.** The texts of a value at two levels differ in blanks and new lines only. -/
theorem levels_agree (t : Ty) (l m : Int) (v : Val t) : tight (dump t l v) = tight (dump t m v) := tight_dump t l m v

/-! ### Refuted -/

/-- **C99, refuted.** Strings are written as they are: at every level, a string with a delimiter reads as two. -/
theorem strings_collide (l : Int) : ∃ v v' : Val (.list .str), v ≠ v' ∧ dump (.list .str) l v = dump (.list .str) l v' := by
  refine ⟨["a".toList ++ ',' :: (nl (next l) ++ "b".toList)], ["a".toList, "b".toList], ?_, ?_⟩
  · intro h
    have : List.length (α := List Char) ["a".toList ++ ',' :: (nl (next l) ++ "b".toList)] = List.length (α := List Char) ["a".toList, "b".toList] := congrArg (List.length (α := List Char)) h
    simp at this
  · have h : ∀ vs : List (List Char), dump (.list .str) l vs = box l '[' ']' vs := by
      intro vs; simp only [dump]; exact congrArg _ (List.map_id _)
    have h2 : ∀ a b : List Char, box l '[' ']' [a ++ ',' :: (nl (next l) ++ b)] = box l '[' ']' [a, b] := by intro a b; simp [box]
    exact (h _).trans (Eq.trans (h2 _ _) (h _).symm)

/-- **C99, refuted.** A compact list of one empty string is written as an empty list. -/
theorem empty_collides : dump (.list .str) (-1) ([[]] : List (List Char)) = dump (.list .str) (-1) ([] : List (List Char)) := by decide +kernel

/-- **C99, refuted.** A null pointer is written as the value its type begins with. -/
theorem null_collides (t : Ty) (l : Int) : dump (.ptr t) l (none : Option (Val t)) = dump (.ptr t) l (some (dflt t) : Option (Val t)) := by
  rw [dump_none, dump_some]

/-- Null pointers to a number, a flag, a text, and a pair of them. -/
example : dump (.ptr .int) 0 (none : Option Int) = "0".toList ∧ dump (.ptr .str) 0 (none : Option (List Char)) = [] ∧
    dump (.ptr .bool) 0 (none : Option Bool) = dump .bool 0 false ∧
    dump (.ptr (.pair .int .enum)) (-1) (none : Option (Int × Int)) = dump (.pair .int .enum) (-1) ((0, 0) : Int × Int) := by decide +kernel

/-- **C99, refuted.** Which alternative a variant holds is not written. -/
theorem variant_collides (l : Int) : dump (.variant .int .str) l (.inl (5 : Int) : Int ⊕ List Char) = dump (.variant .int .str) l (.inr "5".toList : Int ⊕ List Char) := by
  have h1 : dump (.variant .int .str) l (.inl (5 : Int) : Int ⊕ List Char) = number 5 := by simp [dump]
  have h2 : dump (.variant .int .str) l (.inr "5".toList : Int ⊕ List Char) = "5".toList := by simp [dump]
  rw [h1, h2]; decide +kernel

/-- **C99, refuted.** Vectors of `bool` of the same length have the same text. -/
theorem bits_collide (l : Int) (a b : List Bool) (h : a.length = b.length) : dump .bits l a = dump .bits l b := by
  have hd : ∀ x : List Bool, dump .bits l x = box l '[' ']' (x.map fun _ => unsupported) := by intro x; simp only [dump]
  rw [hd, hd]
  have : ∀ x y : List Bool, x.length = y.length → (x.map fun _ => unsupported) = y.map fun _ => unsupported := by
    intro x
    induction x with
    | nil => intro y hy; cases y with
      | nil => rfl
      | cons _ _ => cases hy
    | cons _ x ih => intro y hy; cases y with
      | nil => cases hy
      | cons _ y => rw [List.map_cons, List.map_cons, ih y (Nat.succ.inj hy)]
  exact congrArg _ (this a b h)

/-- **C99, refuted.** Enumerators of 64 bits that agree in the lower 32 have the same text; that of -1 is 4294967295. -/
theorem enums_collide (l : Int) : (∀ i : Int, dump .enum l i = dump .enum l (i + 4294967296 : Int)) ∧ dump .enum l (-1 : Int) = number 4294967295 := by
  have hd : ∀ x : Int, dump .enum l x = decimal (x % 4294967296).toNat := by intro x; simp only [dump]
  constructor
  · intro i
    refine (hd _).trans (Eq.trans ?_ (hd _).symm)
    have : ∀ x : Int, (x + 4294967296) % 4294967296 = x % 4294967296 := by intro x; omega
    exact congrArg (fun z => decimal (Int.toNat z)) (this i).symm
  · rw [hd]; decide +kernel

/-- **C99, refuted.** An 8-bit number is written as the character of that code. -/
theorem byte_no_number : dump .byte 0 (Char.ofNat 65) = ['A'] ∧ dump .int 0 (65 : Int) = ['6', '5'] := by decide +kernel

/-- what a JSON object begins with, after blanks: a brace, and a string or the end -/
def jsonStart (s : List Char) : Bool :=
  match s.dropWhile (fun c => c == ' ' || c == '\n') with
  | '{' :: r => match r.dropWhile (fun c => c == ' ' || c == '\n') with
    | '"' :: _ => true
    | '}' :: _ => true
    | _ => false
  | _ => false

theorem drop_blanks {b : List Char} (hb : ∀ c ∈ b, c = ' ' ∨ c = '\n') {c : Char} (r : List Char) (h1 : c ≠ ' ') (h2 : c ≠ '\n') :
    (b ++ c :: r).dropWhile (fun c => c == ' ' || c == '\n') = c :: r := by
  induction b with
  | nil =>
    have : (c == ' ' || c == '\n') = false := by simp [h1, h2]
    simp [h1, h2]
  | cons x b ih =>
    have hx : (x == ' ' || x == '\n') = true := by
      rcases hb x List.mem_cons_self with rfl | rfl <;> decide
    rw [List.cons_append, List.dropWhile_cons, if_pos hx]
    exact ih fun c hc => hb c (List.mem_cons_of_mem _ hc)

theorem blank_nl (l : Int) : ∀ c ∈ nl l, c = ' ' ∨ c = '\n' := by
  unfold nl; split
  · intro c hc; cases hc
  · intro c hc
    rcases List.mem_cons.mp hc with rfl | hc
    · exact .inr rfl
    · exact .inl (List.mem_replicate.mp hc).2

theorem blank_ind (l : Int) : ∀ c ∈ ind l, c = ' ' ∨ c = '\n' := by
  unfold ind; split
  · intro c hc; cases hc
  · intro c hc; exact .inl (List.mem_replicate.mp hc).2

/-- **C99, refuted.** The text of a generated object is never JSON, so it cannot be loaded again: names are written without quotes. -/
theorem never_json (n : List Char) (t : Ty) (fs : Flds) (l : Int) (v : Val (.obj n t fs)) (hn : n ≠ []) (hc : ∀ c ∈ n, c ≠ ' ' ∧ c ≠ '\n' ∧ c ≠ '"' ∧ c ≠ '}') :
    jsonStart (dump (.obj n t fs) l v) = false := by
  cases n with
  | nil => exact absurd rfl hn
  | cons c n =>
    obtain ⟨h1, h2, h3, h4⟩ := hc c List.mem_cons_self
    have : ∃ r, dump (.obj (c :: n) t fs) l v = ind l ++ '{' :: (nl (next l) ++ c :: r) := by
      rw [obj_eq]
      cases fs with
      | nil =>
        rw [final_one (c :: n) t (next l) v]; simp only [List.append_assoc, List.cons_append, List.nil_append]
        exact ⟨_, rfl⟩
      | cons m u fs =>
        rw [final_cons (c :: n) t m u fs (next l) v]; simp only [List.append_assoc, List.cons_append, List.nil_append]
        exact ⟨_, rfl⟩
    obtain ⟨r, e⟩ := this
    unfold jsonStart
    rw [e, drop_blanks (blank_ind l) _ (by decide) (by decide)]
    simp only []
    rw [drop_blanks (blank_nl _) _ h1 h2]
    split
    · next h => exact absurd (List.cons.inj h).1 h3
    · next h => exact absurd (List.cons.inj h).1 h4
    · rfl

end Maf.Dump
