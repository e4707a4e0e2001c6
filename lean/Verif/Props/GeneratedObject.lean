import Verif.Model.GeneratedObject

/-!
C101: generated objects.
-/

namespace Maf.Obj

variable {α : Type}

/-- **C101.** An object made with arguments has them in the order of declaration; a member without argument has its declared value, or zero: none is indeterminate. -/
theorem made (zero : α) (c : Class α) (args : List α) (i : Nat) (hi : i < c.own.length) (ha : args.length ≤ c.own.length) :
    get (make zero c args) i = some (some (match args[i]? with | some a => a | none => (c.own[i]).getD zero)) := by
  unfold get make
  dsimp only
  by_cases h : i < args.length
  · rw [List.getElem?_append_left (by simpa using h)]
    simp [h]
  · rw [List.getElem?_append_right (by simpa using Nat.le_of_not_lt h)]
    have h2 : args[i]? = none := List.getElem?_eq_none (Nat.le_of_not_lt h)
    rw [h2]
    have h3 : args.length + (i - args.length) = i := by omega
    simp only [List.length_map, List.getElem?_map, List.getElem?_drop, h3, List.getElem?_eq_getElem hi, Option.map_some]

example : (make 0 ⟨[], [some 7, none, some 9]⟩ [1] : Obj Nat) = ⟨[], [some 1, some 0, some 9]⟩ := rfl

/-- **C101, refuted.** An object declared without arguments has indeterminate members, where one made with an empty list of arguments has zero. -/
theorem default_indeterminate (zero : α) (c : Class α) (i : Nat) (h : c.own[i]? = some none) : get (default c) i = some none ∧ get (make zero c []) i = some (some zero) := by
  refine ⟨h, ?_⟩
  unfold get make
  simp [h]

example : (⟨[], [some 7, none]⟩ : Class Nat).own[1]? = some none := rfl

/-- **C101.** A member that is set has that value; the others keep theirs. -/
theorem set_get (o : Obj α) (i j : Nat) (v : α) (h : i < o.own.length) : get (set o i v) j = if j = i then some (some v) else get o j := by
  unfold get set
  dsimp only
  by_cases e : j = i
  · subst e; simp [h]
  · rw [if_neg e, List.getElem?_set_ne (Ne.symm e)]

theorem tupleEq_iff [DecidableEq α] : ∀ a b : List (Option α), tupleEq a b = true ↔ a = b
  | [], [] => by simp [tupleEq]
  | [], _ :: _ => by simp [tupleEq]
  | _ :: _, [] => by simp [tupleEq]
  | x :: a, y :: b => by simp [tupleEq, tupleEq_iff a b]

/-- **C101, in part.** Objects are equal by `==` just if all their members are, and `!=` says the opposite (missing: classes with a base class that has members). -/
theorem eq_iff_partial [DecidableEq α] (a b : Obj α) (ha : a.base = []) (hb : b.base = []) : (eq a b = true ↔ a = b) ∧ (ne a b = true ↔ a ≠ b) := by
  have h : eq a b = true ↔ a = b := by
    unfold eq
    rw [tupleEq_iff]
    constructor
    · intro h; cases a; cases b; simp_all
    · intro h; rw [h]
  refine ⟨h, ?_⟩
  unfold ne
  rw [Bool.not_eq_true']
  constructor
  · intro he e; rw [h.mpr e] at he; cases he
  · intro e; cases hx : eq a b with
    | false => rfl
    | true => exact absurd (h.mp hx) e

/-- an order on the values of members -/
structure Lawful (l : Option α → Option α → Bool) : Prop where
  irrefl : ∀ a, l a a = false
  trans : ∀ a b c, l a b = true → l b c = true → l a c = true
  total : ∀ a b, l a b = false → l b a = false → a = b

theorem tupleLt_irrefl {l : Option α → Option α → Bool} (h : Lawful l) : ∀ a, tupleLt l a a = false
  | [] => rfl
  | x :: a => by simp [tupleLt, h.irrefl x, tupleLt_irrefl h a]

theorem tupleLt_cons {l : Option α → Option α → Bool} (h : Lawful l) {x y : Option α} {a b : List (Option α)} :
    tupleLt l (x :: a) (y :: b) = true ↔ l x y = true ∨ (x = y ∧ tupleLt l a b = true) := by
  simp only [tupleLt, Bool.or_eq_true, Bool.and_eq_true, Bool.not_eq_true']
  constructor
  · rintro (h1 | ⟨h1, h2⟩)
    · exact .inl h1
    · cases hx : l x y with
      | true => exact .inl rfl
      | false => exact .inr ⟨h.total x y hx h1, h2⟩
  · rintro (h1 | ⟨rfl, h2⟩)
    · exact .inl h1
    · exact .inr ⟨h.irrefl x, h2⟩

theorem tupleLt_trans {l : Option α → Option α → Bool} (h : Lawful l) : ∀ a b c, tupleLt l a b = true → tupleLt l b c = true → tupleLt l a c = true
  | [], _, _, h1, _ => by simp [tupleLt] at h1
  | _ :: _, [], _, h1, _ => by simp [tupleLt] at h1
  | _ :: _, _ :: _, [], _, h2 => by simp [tupleLt] at h2
  | x :: a, y :: b, z :: c, h1, h2 => by
    rw [tupleLt_cons h] at h1 h2 ⊢
    rcases h1 with h1 | ⟨rfl, h1⟩
    · rcases h2 with h2 | ⟨rfl, _⟩
      · exact .inl (h.trans _ _ _ h1 h2)
      · exact .inl h1
    · rcases h2 with h2 | ⟨rfl, h2⟩
      · exact .inl h2
      · exact .inr ⟨rfl, tupleLt_trans h a b c h1 h2⟩

theorem tupleLt_total {l : Option α → Option α → Bool} (h : Lawful l) : ∀ a b, a.length = b.length → tupleLt l a b = false → tupleLt l b a = false → a = b
  | [], [], _, _, _ => rfl
  | [], _ :: _, hl, _, _ => by cases hl
  | _ :: _, [], hl, _, _ => by cases hl
  | x :: a, y :: b, hl, h1, h2 => by
    have n1 : ¬ (l x y = true ∨ (x = y ∧ tupleLt l a b = true)) := by rw [← tupleLt_cons h, h1]; simp
    have n2 : ¬ (l y x = true ∨ (y = x ∧ tupleLt l b a = true)) := by rw [← tupleLt_cons h, h2]; simp
    have hx : l x y = false := by cases hx : l x y with
      | false => rfl
      | true => exact absurd (.inl hx) n1
    have hy : l y x = false := by cases hy : l y x with
      | false => rfl
      | true => exact absurd (.inl hy) n2
    have e := h.total x y hx hy
    subst e
    have ha : tupleLt l a b = false := by cases ht : tupleLt l a b with
      | false => rfl
      | true => exact absurd (.inr ⟨rfl, ht⟩) n1
    have hb : tupleLt l b a = false := by cases ht : tupleLt l b a with
      | false => rfl
      | true => exact absurd (.inr ⟨rfl, ht⟩) n2
    rw [tupleLt_total h a b (Nat.succ.inj hl) ha hb]

/-- **C101.** `<` orders objects, as sets and maps need it, and two objects of a class neither of which is less are equal by `==`. -/
theorem lt_orders [DecidableEq α] {l : Option α → Option α → Bool} (h : Lawful l) : (∀ a : Obj α, lt l a a = false) ∧ (∀ a b c : Obj α, lt l a b = true → lt l b c = true → lt l a c = true) ∧
    ∀ a b : Obj α, a.own.length = b.own.length → lt l a b = false → lt l b a = false → eq a b = true :=
  ⟨fun a => tupleLt_irrefl h a.own, fun a b c => tupleLt_trans h a.own b.own c.own, fun a b hl h1 h2 => (tupleEq_iff _ _).mpr (tupleLt_total h a.own b.own hl h1 h2)⟩

/-- **C101.** The member declared first decides. -/
theorem first_decides {l : Option α → Option α → Bool} (h : Lawful l) {x y : Option α} {a b : List (Option α)} {p q : List (Option α)} (hx : l x y = true) :
    lt l ⟨p, x :: a⟩ ⟨q, y :: b⟩ = true ∧ lt l ⟨q, y :: b⟩ ⟨p, x :: a⟩ = false := by
  refine ⟨(tupleLt_cons h).mpr (.inl hx), ?_⟩
  cases ht : tupleLt l (y :: b) (x :: a) with
  | false => exact ht
  | true =>
    rcases (tupleLt_cons h).mp ht with h1 | ⟨rfl, _⟩
    · have := h.trans x y x hx h1; rw [h.irrefl] at this; cases this
    · rw [h.irrefl] at hx; cases hx

/-- such an order -/
def natLt : Option Nat → Option Nat → Bool
  | some a, some b => a < b
  | none, some _ => true
  | _, none => false

theorem natLt_lawful : Lawful natLt := by
  refine ⟨?_, ?_, ?_⟩
  · intro a; cases a <;> simp [natLt]
  · intro a b c; cases a <;> cases b <;> cases c <;> simp [natLt]; omega
  · intro a b; cases a <;> cases b <;> simp [natLt]; omega

/-- The hypotheses are met. -/
example : lt natLt ⟨[], [some 1, some 5]⟩ ⟨[], [some 2, some 0]⟩ = true := rfl

/-- **C101, in part.** An object that is sent and read into another of its class is there as it was (missing: members of the base class, which stay as they were). -/
theorem sent_arrives_partial [DecidableEq α] (a into : Obj α) : eq (received into (sent a)) a = true ∧ (received into (sent a)).own = a.own ∧ (received into (sent a)).base = into.base :=
  ⟨(tupleEq_iff _ _).mpr rfl, rfl, rfl⟩

/-- **C101, refuted.** The members of a base class count for nothing: objects that differ only there are equal, neither is less, and they are lost when sent. -/
theorem base_ignored : ∃ a b into : Obj Nat, a ≠ b ∧ eq a b = true ∧ lt natLt a b = false ∧ lt natLt b a = false ∧ received into (sent a) ≠ a :=
  ⟨⟨[some 1], [some 5]⟩, ⟨[some 2], [some 5]⟩, ⟨[some 0], [some 0]⟩, by decide, by decide, by decide, by decide, by decide⟩

end Maf.Obj
