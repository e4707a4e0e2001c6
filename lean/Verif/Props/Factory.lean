import Verif.Model.Factory
import Verif.Props.Address
import Verif.Lemmas.Hist
/-
C78: one client (server) for one address.
-/
namespace Maf.Fac

open Maf.Addr (Address Tree Conflict Sorted GoodOrder)

/-! ### Specification -/

/-- The log of some run of the client factory (`c = false`) or the server factory (`c = true`). -/
def Log (c : Bool) (l : List Ev) : Prop := ∃ as s, run c init as = some s ∧ s.log = l

/-- No two addresses that were asked for conflict (one has the smaller name, the other the smaller port). -/
def NoConflict (l : List Ev) : Prop := ∀ t a i u b j, .got t a i ∈ l → .got u b j ∈ l → ¬ Conflict a b

/-- Instance `i` was initialised for `a` with success, and started, with nothing in between. -/
def Ready (l : List Ev) (i : Nat) (a : Address) : Prop := ∃ x y, l = x ++ .inited i a true :: .started i :: y

/-- `e` happens, and later `f`. -/
def Before (e f : Ev) (l : List Ev) : Prop := ∃ x y z, l = x ++ e :: y ++ f :: z

/-- Instance 0 is the one of type itc; the others are of type local. -/
def IsOf (t : CType) (i : Nat) : Prop := (t = .itc ∧ i = 0) ∨ (t = .local ∧ i ≠ 0)

/-! ### The tree with an order that need not be one -/

theorem lt_none {a b : Address} (h1 : a.lt b = false) (h2 : b.lt a = false) : a = b := by
  simp only [Address.lt, Bool.or_eq_false_iff, decide_eq_false_iff_not] at h1 h2
  have hn := Addr.nameLt_total _ _ h1.1 h2.1
  have hp : a.port = b.port := Nat.le_antisymm (Nat.le_of_not_lt h2.2) (Nat.le_of_not_lt h1.2)
  cases a; cases b; simp_all

theorem lower_right (k : Address) : ∀ (t : Tree Address) (y : Option Address) (z : Address), t.lower Address.lt k y = some z → y = some z ∨ (z ∈ t.keys ∧ Address.lt z k = false)
  | .leaf, y, z, h => .inl h
  | .node l x r, y, z, h => by
    simp only [Tree.lower] at h
    simp only [Tree.keys, List.mem_append, List.mem_cons]
    split at h
    · rcases lower_right k r y z h with h | h
      · exact .inl h
      · exact .inr ⟨.inr (.inr h.1), h.2⟩
    · rename_i hx
      rcases lower_right k l (some x) z h with h | h
      · cases h; exact .inr ⟨.inr (.inl rfl), by simpa using hx⟩
      · exact .inr ⟨.inl h.1, h.2⟩

/-- What is found is what was looked for. -/
theorem find_right {t : Tree Address} {k z : Address} (h : t.find Address.lt k = some z) : z = k ∧ k ∈ t.keys := by
  unfold Tree.find at h
  split at h
  · cases h
  · rename_i x hx
    split at h <;> cases h
    rename_i hk
    rcases lower_right k t none _ hx with hc | ⟨h1, h2⟩
    · cases hc
    · have := lt_none h2 (by simpa using hk)
      subst this; exact ⟨rfl, h1⟩

theorem insert_mem (k x : Address) : ∀ (t : Tree Address) (p : Option Address), (∀ q, p = some q → Address.lt k q = false) →
    (x ∈ (t.insert Address.lt k p).keys ∨ (p = some k ∧ x = k) ↔ x ∈ t.keys ∨ x = k)
  | .leaf, none, _ => by simp [Tree.insert, Tree.keys]
  | .leaf, some q, hq => by
    have hq := hq q rfl
    simp only [Tree.insert]
    split
    · simp only [Tree.keys, List.nil_append, List.mem_singleton, List.not_mem_nil, false_or]
      exact ⟨fun h => h.elim id And.right, .inl⟩
    · rename_i h
      have := lt_none hq (by simpa using h)
      subst this; simp [Tree.keys]
  | .node l y r, p, hp => by
    simp only [Tree.insert]
    split
    · have h := insert_mem k x l p hp
      simp only [Tree.keys, List.mem_append, List.mem_cons]
      constructor
      · rintro ((h1 | h1) | h1)
        · exact (h.1 (.inl h1)).elim (fun h => .inl (.inl h)) .inr
        · exact .inl (.inr h1)
        · exact .inr h1.2
      · rintro ((h1 | h1) | h1)
        · exact (h.2 (.inl h1)).elim (fun h => .inl (.inl h)) .inr
        · exact .inl (.inr h1)
        · exact (h.2 (.inr h1)).elim (fun h => .inl (.inl h)) .inr
    · rename_i hy
      have h := insert_mem k x r (some y) (by rintro q hq; cases hq; simpa using hy)
      simp only [Tree.keys, List.mem_append, List.mem_cons]
      constructor
      · rintro ((h1 | h1 | h1) | h1)
        · exact .inl (.inl h1)
        · exact .inl (.inr (.inl h1))
        · exact (h.1 (.inl h1)).elim (fun h => .inl (.inr (.inr h))) .inr
        · exact .inr h1.2
      · rintro ((h1 | h1 | h1) | h1)
        · exact .inl (.inl h1)
        · exact .inl (.inr (.inl h1))
        · exact (h.2 (.inl h1)).elim (fun h => .inl (.inr (.inr h))) (fun h => by have := h.1; cases this; exact .inl (.inr (.inl h.2)))
        · exact (h.2 (.inr h1)).elim (fun h => .inl (.inr (.inr h))) (fun h => by have := h.1; cases this; exact .inl (.inr (.inl h.2)))

/-- Inserting a new key keeps the others, and adds it once. -/
theorem insert_perm (k : Address) : ∀ (t : Tree Address) (p : Option Address), (∀ q, p = some q → Address.lt k q = false ∧ q ≠ k) → k ∉ t.keys →
    (t.insert Address.lt k p).keys.Perm (k :: t.keys)
  | .leaf, none, _, _ => by simp [Tree.insert, Tree.keys]
  | .leaf, some q, hq, _ => by
    have hq := hq q rfl
    simp only [Tree.insert]
    split
    · simp [Tree.keys]
    · rename_i h
      exact absurd (lt_none hq.1 (by simpa using h)) (Ne.symm hq.2)
  | .node l y r, p, hp, hk => by
    simp only [Tree.keys, List.mem_append, List.mem_cons, not_or] at hk
    simp only [Tree.insert]
    split
    · simp only [Tree.keys]
      exact (insert_perm k l p hp hk.1).append_right _
    · rename_i hy
      simp only [Tree.keys]
      have := insert_perm k r (some y) (by rintro q hq; cases hq; exact ⟨by simpa using hy, Ne.symm hk.2.1⟩) hk.2.2
      refine ((this.cons y).append_left l.keys).trans ?_
      refine ((List.Perm.swap k y r.keys).append_left l.keys).trans ?_
      exact List.perm_middle

/-! ### Invariant -/

/-- What every event of a log obeys. -/
def EvOk (c : Bool) (l : List Ev) : Ev → Prop
  | .inited i a ok => (i ≠ 0 → ∀ b k, .inited i b k ∉ l) ∧ (i ≠ 0 → ok = true → ∀ j b, j ≠ 0 → .inited j b true ∈ l → b.name ≠ a.name) ∧ (i = 0 → ok = true)
  | .started i => ∃ x a, l = x ++ [.inited i a true]
  | .got t a (some i) => IsOf t i ∧ Ready l i a ∧ (c = true → t = .local → .deinited i ∉ l) ∧
      (∀ x y j, l = x ++ .got t a (some j) :: y → (c = true → .closing ∉ y) → j = i)
  | .got t a none => ((∃ n, t = .other n) ∨ (t = .local ∧ ∃ x i, l = x ++ [.inited i a false])) ∧
      (NoConflict (l ++ [.got t a none]) → ∀ x y j, l = x ++ .got t a (some j) :: y → c = true ∧ .closing ∈ y)
  | .closed => ∃ x y, l = x ++ .closing :: y ∧ (∀ e ∈ y, ∃ i, e = .stopped i ∨ e = .deinited i) ∧
      (∀ i a, i ≠ 0 → .inited i a true ∈ x → (c = true → .deinited i ∉ x) → y.count (.stopped i) = 1 ∧ y.count (.deinited i) = 1) ∧
      ∀ i j, i ≠ 0 → j ≠ 0 → .stopped i ∈ y → .deinited j ∈ y → Before (.stopped i) (.deinited j) y
  | .stopped i => ∃ a, Ready l i a
  | .deinited i => .stopped i ∈ l
  | .closing => True

/-- `(t, a)` was given `i`, and (servers) not closed since. -/
def Current (c : Bool) (l : List Ev) (t : CType) (a : Address) (i : Nat) : Prop := ∃ x y, l = x ++ .got t a (some i) :: y ∧ (c = true → .closing ∉ y)

structure Inv (c : Bool) (s : State) : Prop where
  keys : ∀ t k, k ∈ (s.tree t).keys ↔ (s.val t k).isSome
  nodup : (s.tree .local).keys.Nodup
  of : ∀ t k i, s.val t k = some i → IsOf t i ∧ Ready s.log i k
  vals : ∀ k i, s.val .local k = some i → c = true → .deinited i ∉ s.log
  cur : ∀ t a i, Current c s.log t a i → s.val t a = some i
  all : ∀ i a, i ≠ 0 → .inited i a true ∈ s.log → (c = true → .deinited i ∉ s.log) → s.val .local a = some i
  own : ∀ i a, i ≠ 0 → .inited i a true ∈ s.log → a.name ∈ s.owned
  ids : 0 < s.next ∧ ∀ i a k, .inited i a k ∈ s.log → i < s.next
  asked : ∀ t k, k ∈ (s.tree t).keys → ∃ i, .got t k i ∈ s.log
  sorted : NoConflict s.log → ∀ t, Sorted Address.lt (s.tree t).keys
  hist : Hist (EvOk c) s.log

theorem inv_init (c : Bool) : Inv c init := by
  refine ⟨?_, ?_, ?_, ?_, ?_, ?_, ?_, ⟨?_, ?_⟩, ?_, ?_, Hist.nil⟩ <;> simp [init, Tree.keys, Current, Sorted]

theorem Ready.more {l r : List Ev} {i : Nat} {a : Address} (h : Ready l i a) : Ready (l ++ r) i a := by
  obtain ⟨x, y, rfl⟩ := h; exact ⟨x, y ++ r, by simp⟩

theorem Ready.mem {l : List Ev} {i : Nat} {a : Address} (h : Ready l i a) : .inited i a true ∈ l := by
  obtain ⟨x, y, rfl⟩ := h; simp

theorem NoConflict.left {l r : List Ev} (h : NoConflict (l ++ r)) : NoConflict l := fun t a i u b j h1 h2 => h t a i u b j (by simp [h1]) (by simp [h2])

theorem isOf_fun {t : CType} {i j : Nat} (hi : IsOf t i) (hl : t ≠ .local) (hj : IsOf t j) : i = j := by
  rcases hi with ⟨rfl, rfl⟩ | ⟨rfl, hi⟩
  · rcases hj with ⟨-, rfl⟩ | ⟨hj, -⟩
    · rfl
    · cases hj
  · exact absurd rfl hl

/-- The order is good on the addresses asked for, if none conflict. -/
theorem good {l : List Ev} (h : NoConflict l) : GoodOrder (fun a => ∃ t i, .got t a i ∈ l) Address.lt :=
  (Addr.order_iff_partial _).2 fun a b ⟨t, i, ha⟩ ⟨u, j, hb⟩ => h t a i u b j ha hb

theorem current_snoc {c : Bool} {l : List Ev} {e : Ev} {t : CType} {a : Address} {i : Nat} (h : Current c (l ++ [e]) t a i) : e = .got t a (some i) ∨ (Current c l t a i ∧ (c = true → e ≠ .closing)) := by
  obtain ⟨x, y, h1, h2⟩ := h
  rcases List.eq_nil_or_concat y with rfl | ⟨y', f, rfl⟩
  · obtain ⟨-, h3⟩ := List.append_inj' h1 rfl; cases h3; exact .inl rfl
  · have h' : l ++ [e] = (x ++ .got t a (some i) :: y') ++ [f] := by rw [h1]; simp
    obtain ⟨h3, h4⟩ := List.append_inj' h' rfl
    cases h4
    exact .inr ⟨⟨x, y', h3, fun hc hm => h2 hc (by simp [hm])⟩, fun hc hm => h2 hc (by simp [hm])⟩

theorem current_snocs {c : Bool} {l r : List Ev} {t : CType} {a : Address} {i : Nat} (h : Current c (l ++ r) t a i) : .got t a (some i) ∈ r ∨ (Current c l t a i ∧ (c = true → .closing ∉ r)) := by
  revert h
  refine snoc_induct (motive := fun r => Current c (l ++ r) t a i → .got t a (some i) ∈ r ∨ (Current c l t a i ∧ (c = true → .closing ∉ r))) (fun h => .inr ⟨by simpa using h, by simp⟩) ?_ r
  intro r e ih h
  rw [← List.append_assoc] at h
  rcases current_snoc h with rfl | ⟨h1, h2⟩
  · exact .inl (by simp)
  · rcases ih h1 with h3 | ⟨h3, h4⟩
    · exact .inl (by simp [h3])
    · refine .inr ⟨h3, fun hc hm => ?_⟩
      rcases List.mem_append.1 hm with hm | hm
      · exact h4 hc hm
      · exact h2 hc (List.mem_singleton.1 hm).symm

/-- With no conflict, what is stored is found. -/
theorem find_stored {c : Bool} {s : State} (h : Inv c s) {t : CType} {a : Address} {r : Option Nat} (hn : NoConflict (s.log ++ [.got t a r])) {i : Nat} (hv : s.val t a = some i) : find s t a = some i := by
  have hg := good hn
  have := (Addr.find_iff hg (k := a) ⟨t, r, by simp⟩ (s.tree t) (fun x hx => by obtain ⟨j, hj⟩ := h.asked t x hx; exact ⟨t, j, by simp [hj]⟩) (h.sorted hn.left t)).1 ((h.keys t a).2 (by simp [hv]))
  simp [find, this, hv]

theorem find_val {s : State} {t : CType} {a : Address} {i : Nat} (h : find s t a = some i) : s.val t a = some i := by
  unfold find at h
  cases hf : (s.tree t).find Address.lt a with
  | none => rw [hf] at h; cases h
  | some z =>
    rw [hf] at h
    obtain ⟨rfl, -⟩ := find_right hf
    exact h

theorem got_none_ok {c : Bool} {s : State} (h : Inv c s) {t : CType} {a : Address} (hf : find s t a = none) {l : List Ev} (hl : s.log <+: l)
    (hq : ∀ x y j, l = x ++ .got t a (some j) :: y → ∃ y', s.log = x ++ .got t a (some j) :: y' ∧ y' <+: y)
    (hg : ∀ u b r, .got u b r ∈ s.log → .got u b r ∈ l) : NoConflict (l ++ [.got t a none]) → ∀ x y j, l = x ++ .got t a (some j) :: y → c = true ∧ .closing ∈ y := by
  intro hn x y j hx
  obtain ⟨y', h1, h2⟩ := hq x y j hx
  apply Decidable.byContradiction
  intro hc
  have hcur : Current c s.log t a j := ⟨x, y', h1, fun hc' hm => hc ⟨hc', h2.subset hm⟩⟩
  have hn' : NoConflict (s.log ++ [.got t a none]) := fun u b i v d k h3 h4 => hn u b i v d k (by
    rcases List.mem_append.1 h3 with h3 | h3
    · simp [hg _ _ _ h3]
    · simp [List.mem_singleton.1 h3]) (by
    rcases List.mem_append.1 h4 with h4 | h4
    · simp [hg _ _ _ h4]
    · simp [List.mem_singleton.1 h4])
  rw [find_stored h hn' (h.cur t a j hcur)] at hf; cases hf

theorem inv_got {c : Bool} {s : State} (h : Inv c s) {t : CType} {a : Address} {r : Option Nat} (hv : ∀ i, r = some i → s.val t a = some i) (he : EvOk c s.log (.got t a r)) :
    Inv c { s with log := s.log ++ [.got t a r] } := by
  refine ⟨h.keys, h.nodup, fun u k i hk => ⟨(h.of u k i hk).1, (h.of u k i hk).2.more⟩, fun k i hk hc hm => ?_, fun u b i hu => ?_, fun i b hi hm hd => ?_, fun i b hi hm => ?_, ⟨h.ids.1, fun i b k hm => ?_⟩, fun u k hk => ?_, fun hn => h.sorted hn.left, h.hist.one he⟩
  · simp at hm; exact h.vals k i hk hc hm
  · rcases current_snoc hu with h1 | h1
    · cases h1; exact hv i rfl
    · exact h.cur u b i h1.1
  · simp at hm hd; exact h.all i b hi hm hd
  · simp at hm; exact h.own i b hi hm
  · simp at hm; exact h.ids.2 i b k hm
  · obtain ⟨i, hi⟩ := h.asked u k hk; exact ⟨i, by simp [hi]⟩

/-- A failed `init`. -/
theorem inv_failed {c : Bool} {s : State} (h : Inv c s) {a : Address} (hf : find s .local a = none) :
    Inv c { s with next := s.next + 1, log := s.log ++ [.inited s.next a false, .got .local a none] } := by
  have h1 : Inv c { s with next := s.next + 1, log := s.log ++ [.inited s.next a false] } := by
    refine ⟨h.keys, h.nodup, fun u k i hk => ⟨(h.of u k i hk).1, (h.of u k i hk).2.more⟩, fun k i hk hc hm => ?_, fun u b i hu => ?_, fun i b hi hm hd => ?_, fun i b hi hm => ?_, ⟨Nat.succ_pos _, fun i b k hm => ?_⟩, fun u k hk => ?_, fun hn => h.sorted hn.left, h.hist.one ⟨fun _ b k hm => ?_, by simp, fun hc => ?_⟩⟩
    · simp at hm; exact h.vals k i hk hc hm
    · rcases current_snoc hu with h1 | h1
      · cases h1
      · exact h.cur u b i h1.1
    · simp at hm hd; exact h.all i b hi hm hd
    · simp at hm; exact h.own i b hi hm
    · simp at hm
      rcases hm with hm | ⟨rfl, -⟩
      · exact Nat.lt_succ_of_lt (h.ids.2 i b k hm)
      · exact Nat.lt_succ_self _
    · obtain ⟨i, hi⟩ := h.asked u k hk; exact ⟨i, by simp [hi]⟩
    · exact absurd (h.ids.2 _ _ _ hm) (Nat.lt_irrefl _)
    · exact absurd hc (Nat.ne_of_gt h.ids.1)
  have h2 := inv_got h1 (t := .local) (a := a) (r := none) (by simp) ⟨.inr ⟨rfl, s.log, s.next, rfl⟩, ?_⟩
  · simpa using h2
  · refine got_none_ok h hf ⟨_, rfl⟩ (fun x y j hx => ?_) (fun u b r hm => by simp [hm])
    rcases List.eq_nil_or_concat y with rfl | ⟨y', f, rfl⟩
    · have := List.append_inj' hx rfl; simp at this
    · have h' : s.log ++ [.inited s.next a false] = (x ++ .got .local a (some j) :: y') ++ [f] := by simpa using hx
      obtain ⟨h3, -⟩ := List.append_inj' h' rfl
      exact ⟨y', h3, ⟨[f], by simp⟩⟩

theorem inv_store {c : Bool} {s : State} (h : Inv c s) {t : CType} {a : Address} {i : Nat} {tr : Tree Address} {n : Nat} {o : List (List Nat)} (hf : find s t a = none) (ht : IsOf t i)
    (hi : i ≠ 0 → i = s.next ∧ a.name ∉ s.owned ∧ a.name ∈ o) (hn : s.next ≤ n ∧ i < n) (ho : ∀ x ∈ s.owned, x ∈ o) (htr : tr.keys = ((s.tree t).insert Address.lt a none).keys) :
    Inv c { store s t a i tr with next := n, owned := o } := by
  have hmem : ∀ x, x ∈ tr.keys ↔ x ∈ (s.tree t).keys ∨ x = a := fun x => by
    rw [htr]; simpa using insert_mem a x (s.tree t) none (by simp)
  -- the value that is there afterwards
  have hnew : i ≠ 0 → a ∉ (s.tree t).keys := fun h0 hk => by
    have ht' : t = .local := by rcases ht with ⟨-, h1⟩ | ⟨h1, -⟩; · exact absurd h1 h0
                                exact h1
    obtain ⟨j, hj⟩ := Option.isSome_iff_exists.1 ((h.keys t a).1 hk)
    obtain ⟨h1, h2⟩ := h.of t a j hj
    have hj0 : j ≠ 0 := by rcases h1 with ⟨h1, -⟩ | ⟨-, h1⟩; · rw [ht'] at h1; cases h1
                           exact h1
    exact (hi h0).2.1 (h.own j a hj0 h2.mem)
  have hval : (s.val t a).or (some i) = some i := by
    cases hv : s.val t a with
    | none => rfl
    | some j =>
      by_cases h0 : i = 0
      · have : j = i := by
          have h1 := (h.of t a j hv).1
          rcases ht with ⟨rfl, rfl⟩ | ⟨-, h2⟩
          · rcases h1 with ⟨-, h1⟩ | ⟨h1, -⟩
            · exact h1
            · cases h1
          · exact absurd h0 h2
        rw [this]; rfl
      · exact absurd ((h.keys t a).2 (by simp [hv])) (hnew h0)
  have hcurr : ∀ j, Current c s.log t a j → j = i := fun j hj => by
    have hv := h.cur t a j hj
    rw [hv] at hval; simpa using hval
  have hlog : ({ store s t a i tr with next := n, owned := o } : State).log = s.log ++ [.inited i a true, .started i, .got t a (some i)] := rfl
  have hready : Ready (s.log ++ [.inited i a true, .started i, .got t a (some i)]) i a := ⟨s.log, [.got t a (some i)], rfl⟩
  have hfresh : ∀ b k, i ≠ 0 → .inited i b k ∉ s.log := fun b k h0 hm => by
    have := h.ids.2 i b k hm; rw [(hi h0).1] at this; exact absurd this (Nat.lt_irrefl _)
  have hfd : i ≠ 0 → .deinited i ∉ s.log := fun h0 hm => by
    obtain ⟨x, y, hx⟩ := List.append_of_mem hm
    have hst := h.hist.all x _ y hx
    obtain ⟨x', y', hx'⟩ := List.append_of_mem hst
    obtain ⟨b, hb⟩ := h.hist.all x' (.stopped i) (y' ++ .deinited i :: y) (by rw [hx, hx']; simp)
    exact hfresh b true h0 (by rw [hx, hx']; simp [hb.mem])
  refine ⟨fun u k => ?_, ?_, fun u k j hk => ?_, fun k j hk hc hm => ?_, fun u b j hu => ?_, fun j b hj hm hd => ?_, fun j b hj hm => ?_, ⟨Nat.lt_of_le_of_lt (Nat.zero_le _) hn.2, fun j b k hm => ?_⟩, fun u k hk => ?_, fun hnc u => ?_, ?_⟩
  · simp only [store]
    by_cases hu : u = t
    · subst hu
      simp only [if_true, true_and]
      rw [hmem, h.keys]
      by_cases hk : k = a
      · subst hk; simp
      · simp [hk]
    · simp only [hu, if_false, false_and]; exact h.keys u k
  · simp only [store]
    by_cases hu : CType.local = t
    · subst hu
      simp only [if_true]
      rw [htr]
      have h0 : i ≠ 0 := by rcases ht with ⟨h1, -⟩ | ⟨-, h1⟩; · cases h1
                            exact h1
      exact (insert_perm a (s.tree .local) none (by simp) (hnew h0)).nodup_iff.2 (List.nodup_cons.2 ⟨hnew h0, h.nodup⟩)
    · simp only [hu, if_false]; exact h.nodup
  · rw [hlog]; simp only [store] at hk
    split at hk
    · rename_i hu; obtain ⟨rfl, rfl⟩ := hu
      rw [hval] at hk; cases hk; exact ⟨ht, hready⟩
    · exact ⟨(h.of u k j hk).1, (h.of u k j hk).2.more⟩
  · rw [hlog] at hm; simp only [store] at hk
    have hm2 : .deinited j ∈ s.log := by simpa using hm
    clear hm
    split at hk
    · rename_i hu; obtain ⟨rfl, rfl⟩ := hu
      rw [hval] at hk; cases hk
      have h0 : i ≠ 0 := by rcases ht with ⟨h1, -⟩ | ⟨-, h1⟩; · cases h1
                            exact h1
      exact hfd h0 hm2
    · exact h.vals k j hk hc hm2
  · rw [hlog] at hu; simp only [store]
    rcases current_snocs hu with h1 | ⟨h1, -⟩
    · simp at h1; obtain ⟨rfl, rfl, rfl⟩ := h1; simp [hval]
    · by_cases hx : u = t ∧ b = a
      · obtain ⟨rfl, rfl⟩ := hx
        rw [if_pos ⟨rfl, rfl⟩, hval, hcurr j h1]
      · rw [if_neg hx]; exact h.cur u b j h1
  · rw [hlog] at hm hd; simp only [store]
    simp at hm
    rcases hm with hm | ⟨rfl, rfl⟩
    · have hv := h.all j b hj hm (fun hc hm' => hd hc (by simp [hm']))
      by_cases hx : CType.local = t ∧ b = a
      · obtain ⟨rfl, rfl⟩ := hx; simp [hv]
      · rw [if_neg hx]; exact hv
    · have : CType.local = t := by rcases ht with ⟨-, h1⟩ | ⟨h1, -⟩; · exact absurd h1 hj
                                   exact h1.symm
      rw [if_pos ⟨this, rfl⟩]; subst this; exact hval
  · rw [hlog] at hm; simp at hm
    rcases hm with hm | ⟨rfl, rfl⟩
    · exact ho _ (h.own j b hj hm)
    · exact (hi hj).2.2
  · rw [hlog] at hm; simp at hm
    rcases hm with hm | ⟨rfl, -⟩
    · exact Nat.lt_of_lt_of_le (h.ids.2 j b k hm) hn.1
    · exact hn.2
  · rw [hlog]
    have hk' : k ∈ (s.tree u).keys ∨ (u = t ∧ k = a) := by
      simp only [store] at hk
      by_cases hu : u = t
      · subst hu; simp only [if_true] at hk
        rcases (hmem k).1 hk with h1 | h1
        · exact .inl h1
        · exact .inr ⟨rfl, h1⟩
      · simp only [hu, if_false] at hk; exact .inl hk
    rcases hk' with h1 | ⟨rfl, rfl⟩
    · obtain ⟨j, hj⟩ := h.asked u k h1; exact ⟨j, by simp [hj]⟩
    · exact ⟨some i, by simp⟩
  · rw [hlog] at hnc
    have hg := good hnc
    have hso := h.sorted hnc.left u
    simp only [store]
    by_cases hu : u = t
    · subst hu; simp only [if_true]
      rw [htr]
      exact (Addr.insert_keys hg (k := a) ⟨u, some i, by simp⟩ (s.tree u) none (fun x hx => by obtain ⟨j, hj⟩ := h.asked u x hx; exact ⟨u, j, by simp [hj]⟩) hso (by simp)).1
    · simp only [hu, if_false]; exact hso
  · rw [hlog]
    refine h.hist.three ⟨fun h0 b k => hfresh b k h0, fun h0 _ j b hj hm hc => (hi h0).2.1 (hc ▸ h.own j b hj hm), fun _ => rfl⟩ ⟨s.log, a, rfl⟩ ⟨ht, ⟨s.log, [], by simp⟩, fun hc ht' hm => ?_, fun x y j hx hc => ?_⟩
    · have hm : .deinited i ∈ s.log := by simpa using hm
      rcases ht with ⟨h1, -⟩ | ⟨-, h1⟩
      · rw [h1] at ht'; cases ht'
      · exact hfd h1 hm
    · have hcu : Current c (s.log ++ [.inited i a true, .started i]) t a j := ⟨x, y, hx, hc⟩
      rcases current_snocs hcu with h1 | ⟨h1, -⟩
      · simp at h1
      · exact hcurr j h1

theorem mem_insts {s : State} {t : CType} {i : Nat} : i ∈ insts s t ↔ ∃ k, k ∈ (s.tree t).keys ∧ s.val t k = some i := List.mem_filterMap

theorem insts_nodup {c : Bool} {s : State} (h : Inv c s) : (insts s .local).Nodup := by
  have : ∀ l : List Address, l.Nodup → (l.filterMap (s.val .local)).Nodup := by
    intro l
    induction l with
    | nil => simp
    | cons a l ih =>
      intro hn
      obtain ⟨h1, h2⟩ := List.nodup_cons.1 hn
      rw [List.filterMap_cons]
      cases hv : s.val .local a with
      | none => exact ih h2
      | some i =>
        refine List.nodup_cons.2 ⟨fun hm => ?_, ih h2⟩
        obtain ⟨b, hb, hbi⟩ := List.mem_filterMap.1 hm
        obtain ⟨h3, h4⟩ := h.of _ _ _ hv
        obtain ⟨-, h5⟩ := h.of _ _ _ hbi
        have h0 : i ≠ 0 := by rcases h3 with ⟨h3, -⟩ | ⟨-, h3⟩; · cases h3
                              exact h3
        -- the same instance was initialised for both
        have := h4.mem; have h6 := h5.mem
        obtain ⟨x, y, e1⟩ := List.append_of_mem this
        obtain ⟨u, w, e2⟩ := List.append_of_mem h6
        rcases places (e1.symm.trans e2) with ⟨-, e, -⟩ | ⟨d, e, -⟩ | ⟨d, e, -⟩
        · cases e; exact h1 hb
        · exact (h.hist.all u (.inited i b true) w e2).1 h0 a true (by rw [e]; simp)
        · exact (h.hist.all x (.inited i a true) y e1).1 h0 b true (by rw [e]; simp)
  exact this _ h.nodup

theorem count_map {α : Type} [DecidableEq α] (f : α → Ev) (hf : ∀ a b, f a = f b → a = b) (a : α) : ∀ l : List α, (l.map f).count (f a) = l.count a
  | [] => rfl
  | b :: l => by
    rw [List.map_cons, List.count_cons, List.count_cons, count_map f hf a l]
    by_cases h : b = a
    · subst h; simp
    · have : f b ≠ f a := fun hc => h (hf _ _ hc)
      simp [h, this]

theorem count_not {f : Nat → Ev} {e : Ev} (h : ∀ a, f a ≠ e) (l : List Nat) : (l.map f).count e = 0 :=
  List.count_eq_zero.2 fun hm => by obtain ⟨a, -, ha⟩ := List.mem_map.1 hm; exact h a ha

theorem insts_local {c : Bool} {s : State} (h : Inv c s) {i : Nat} (hi : i ≠ 0) : i ∉ insts s .itc := fun hm => by
  obtain ⟨k, -, hv⟩ := mem_insts.1 hm
  rcases (h.of _ _ _ hv).1 with ⟨-, h1⟩ | ⟨h1, -⟩
  · exact hi h1
  · cases h1

theorem insts_ready {c : Bool} {s : State} (h : Inv c s) {t : CType} {i : Nat} (hi : i ∈ insts s t) : ∃ a, Ready s.log i a := by
  obtain ⟨k, -, hv⟩ := mem_insts.1 hi; exact ⟨k, (h.of _ _ _ hv).2⟩

theorem hist_stops {c : Bool} {l : List Ev} (h : Hist (EvOk c) l) {is : List Nat} (hr : ∀ i ∈ is, ∃ a, Ready l i a) : Hist (EvOk c) (l ++ is.map .stopped) := by
  revert hr
  refine snoc_induct (motive := fun is => (∀ i ∈ is, ∃ a, Ready l i a) → Hist (EvOk c) (l ++ is.map .stopped)) (fun _ => by simpa using h) ?_ is
  intro is i ih hr
  rw [List.map_append, ← List.append_assoc]
  refine (ih fun j hj => hr j (by simp [hj])).one ?_
  obtain ⟨a, ha⟩ := hr i (by simp)
  exact ⟨a, ha.more⟩

theorem hist_deinits {c : Bool} {l : List Ev} (h : Hist (EvOk c) l) {is : List Nat} (hr : ∀ i ∈ is, .stopped i ∈ l) : Hist (EvOk c) (l ++ is.map .deinited) := by
  revert hr
  refine snoc_induct (motive := fun is => (∀ i ∈ is, .stopped i ∈ l) → Hist (EvOk c) (l ++ is.map .deinited)) (fun _ => by simpa using h) ?_ is
  intro is i ih hr
  rw [List.map_append, ← List.append_assoc]
  refine (ih fun j hj => hr j (by simp [hj])).one ?_
  have := hr i (by simp)
  show Ev.stopped i ∈ _
  simp [this]

theorem hist_closeType {c : Bool} {s : State} (h : Inv c s) {l : List Ev} (hl : s.log <+: l) (hh : Hist (EvOk c) l) (t : CType) : Hist (EvOk c) (l ++ closeType s t) := by
  unfold closeType
  rw [← List.append_assoc]
  refine hist_deinits (hist_stops hh fun i hi => ?_) fun i hi => by simp [hi]
  obtain ⟨r, rfl⟩ := hl
  obtain ⟨a, ha⟩ := insts_ready h hi
  exact ⟨a, ha.more⟩

theorem count_stop {c : Bool} {s : State} (h : Inv c s) {i : Nat} (hi : i ≠ 0) (hm : i ∈ insts s .local) :
    (closeType s .itc ++ closeType s .local).count (.stopped i) = 1 ∧ (closeType s .itc ++ closeType s .local).count (.deinited i) = 1 := by
  have h1 : (insts s .local).count i = 1 := by rw [(insts_nodup h).count]; simp [hm]
  have h2 : (insts s .itc).count i = 0 := List.count_eq_zero.2 (insts_local h hi)
  simp only [closeType, List.count_append]
  rw [count_map Ev.stopped (fun a b h => by cases h; rfl), count_map Ev.stopped (fun a b h => by cases h; rfl), count_map Ev.deinited (fun a b h => by cases h; rfl), count_map Ev.deinited (fun a b h => by cases h; rfl),
    count_not (f := Ev.stopped) (e := .deinited i) (by simp), count_not (f := Ev.stopped) (e := .deinited i) (by simp), count_not (f := Ev.deinited) (e := .stopped i) (by simp), count_not (f := Ev.deinited) (e := .stopped i) (by simp), h1, h2]
  simp

theorem mem_closeType {s : State} {t : CType} {i : Nat} : (.stopped i ∈ closeType s t ↔ i ∈ insts s t) ∧ (.deinited i ∈ closeType s t ↔ i ∈ insts s t) := by
  simp [closeType]

theorem closeType_before {s : State} {t : CType} {i j : Nat} (hi : i ∈ insts s t) (hj : j ∈ insts s t) (r : List Ev) : Before (.stopped i) (.deinited j) (r ++ closeType s t) := by
  obtain ⟨x, y, h1⟩ := List.append_of_mem hi
  obtain ⟨u, w, h2⟩ := List.append_of_mem hj
  refine ⟨r ++ x.map .stopped, y.map .stopped ++ u.map .deinited, w.map .deinited, ?_⟩
  have : closeType s t = (x ++ i :: y).map .stopped ++ (u ++ j :: w).map .deinited := by rw [← h1, ← h2]; rfl
  rw [this]; simp

theorem closeType_all {s : State} {t : CType} : ∀ e ∈ closeType s t, ∃ i, e = .stopped i ∨ e = .deinited i := by
  intro e he
  simp only [closeType, List.mem_append, List.mem_map] at he
  rcases he with ⟨i, -, rfl⟩ | ⟨i, -, rfl⟩
  · exact ⟨i, .inl rfl⟩
  · exact ⟨i, .inr rfl⟩

theorem close_hist {c : Bool} {s : State} (h : Inv c s) : Hist (EvOk c) (close c s).log := by
  have h1 : Hist (EvOk c) (s.log ++ [.closing]) := h.hist.one trivial
  have h2 := hist_closeType h (l := s.log ++ [.closing] ++ closeType s .itc) ⟨_, by rw [List.append_assoc]⟩ (hist_closeType h ⟨_, rfl⟩ h1 .itc) .local
  have e : (close c s).log = s.log ++ [.closing] ++ closeType s .itc ++ closeType s .local ++ [.closed] := by simp [close]
  rw [e]
  refine h2.one ⟨s.log, closeType s .itc ++ closeType s .local, by simp, fun f hf => ?_, fun i a hi hm hd => ?_, fun i j hi hj h3 h4 => ?_⟩
  · rcases List.mem_append.1 hf with hf | hf
    · exact closeType_all f hf
    · exact closeType_all f hf
  · refine count_stop h hi (mem_insts.2 ⟨a, ?_, h.all i a hi hm hd⟩)
    exact (h.keys _ _).2 (by simp [h.all i a hi hm hd])
  · have h3 : i ∈ insts s .local := by
      rcases List.mem_append.1 h3 with h3 | h3
      · exact absurd (mem_closeType.1.1 h3) (insts_local h hi)
      · exact mem_closeType.1.1 h3
    have h4 : j ∈ insts s .local := by
      rcases List.mem_append.1 h4 with h4 | h4
      · exact absurd (mem_closeType.2.1 h4) (insts_local h hj)
      · exact mem_closeType.2.1 h4
    exact closeType_before h3 h4 _

theorem inv_close {c : Bool} {s : State} (h : Inv c s) : Inv c (close c s) := by
  have hh := close_hist h
  have e : (close c s).log = s.log ++ (.closing :: (closeType s .itc ++ closeType s .local) ++ [.closed]) := rfl
  have hin : ∀ i a k, .inited i a k ∈ (close c s).log ↔ .inited i a k ∈ s.log := fun i a k => by
    rw [e]; simp [closeType]
  have hgot : ∀ t a i, .got t a i ∈ (close c s).log ↔ .got t a i ∈ s.log := fun t a i => by
    rw [e]; simp [closeType]
  have hcur : ∀ t a i, Current c (close c s).log t a i → c = false ∧ Current c s.log t a i := fun t a i hu => by
    rw [e] at hu
    rcases current_snocs hu with h1 | ⟨h1, h2⟩
    · simp [closeType] at h1
    · refine ⟨?_, h1⟩
      cases hc : c with
      | false => rfl
      | true => exact absurd (by simp) (h2 hc)
  have hids : 0 < (close c s).next ∧ ∀ i a k, .inited i a k ∈ (close c s).log → i < (close c s).next := ⟨h.ids.1, fun i a k hm => h.ids.2 i a k ((hin i a k).1 hm)⟩
  have hown : ∀ i a, i ≠ 0 → .inited i a true ∈ (close c s).log → a.name ∈ (close c s).owned := fun i a hi hm => h.own i a hi ((hin i a true).1 hm)
  cases c with
  | false =>
    refine ⟨h.keys, h.nodup, fun t k i hk => ⟨(h.of t k i hk).1, (h.of t k i hk).2.more⟩, (fun _ _ _ hc => by cases hc), fun t a i hu => h.cur t a i (hcur t a i hu).2, fun i a hi hm _ => h.all i a hi ((hin i a true).1 hm) (fun hc => by cases hc), hown, hids, fun t k hk => ?_, fun hn => h.sorted ?_, hh⟩
    · obtain ⟨i, hi⟩ := h.asked t k hk; exact ⟨i, (hgot t k i).2 hi⟩
    · rw [e] at hn; exact hn.left
  | true =>
    refine ⟨(fun t k => by simp [close, Tree.keys]), by simp [close, Tree.keys], (fun t k i hk => by simp [close] at hk), (fun k i hk => by simp [close] at hk), (fun t a i hu => by have := (hcur t a i hu).1; cases this), fun i a hi hm hd => ?_, hown, hids, (fun t k hk => by simp [close, Tree.keys] at hk), fun _ t => by simp [close, Tree.keys, Sorted], hh⟩
    have h1 := (hin i a true).1 hm
    by_cases hx : .deinited i ∈ s.log
    · exact absurd (by rw [e]; simp [hx]) (hd rfl)
    · have hv := h.all i a hi h1 (fun _ => hx)
      have : i ∈ insts s .local := mem_insts.2 ⟨a, (h.keys _ _).2 (by simp [hv]), hv⟩
      exact absurd (by rw [e]; simp [closeType, this]) (hd rfl)

theorem inv_step {c : Bool} {s s' : State} {x : Act} (h : Inv c s) (hs : step c s x = some s') : Inv c s' := by
  cases x with
  | close => cases hs; exact inv_close h
  | get t a ok tr =>
    simp only [step, get] at hs
    cases hf : find s t a with
    | some i =>
      rw [hf] at hs; cases hs
      have hv := find_val hf
      refine inv_got h (fun j hj => by cases hj; exact hv) ⟨(h.of _ _ _ hv).1, (h.of _ _ _ hv).2, fun hc ht => ?_, fun x y j hx hc => ?_⟩
      · subst ht; exact h.vals a i hv hc
      · have := h.cur t a j ⟨x, y, hx, hc⟩
        rw [hv] at this; cases this; rfl
    | none =>
      rw [hf] at hs
      cases t with
      | other n =>
        cases hs
        refine inv_got h (by simp) ⟨.inl ⟨n, rfl⟩, got_none_ok h hf ⟨[], by simp⟩ (fun x y j hx => ⟨y, hx, ⟨[], by simp⟩⟩) (fun _ _ _ hm => hm)⟩
      | itc =>
        simp only at hs; split at hs <;> cases hs
        rename_i htr
        exact inv_store h (n := s.next) (o := s.owned) hf (.inl ⟨rfl, rfl⟩) (fun h0 => absurd rfl h0) ⟨Nat.le_refl _, h.ids.1⟩ (fun _ hx => hx) htr
      | «local» =>
        simp only at hs; split at hs
        · split at hs <;> cases hs
          rename_i hx
          refine inv_store h hf (.inr ⟨rfl, Nat.ne_of_gt h.ids.1⟩) (fun _ => ⟨rfl, hx.1, by simp⟩) ⟨Nat.le_succ _, Nat.lt_succ_self _⟩ (fun _ hx => by simp [hx]) hx.2
        · cases hs; exact inv_failed h hf

theorem inv_run {c : Bool} {as : List Act} {s s' : State} (h : Inv c s) (hr : run c s as = some s') : Inv c s' := by
  induction as generalizing s with
  | nil => cases hr; exact h
  | cons a as ih =>
    simp only [run] at hr
    cases hs : step c s a with
    | none => rw [hs] at hr; cases hr
    | some s1 => rw [hs] at hr; exact ih (inv_step h hs) hr

theorem Log.hist {c : Bool} {l : List Ev} (h : Log c l) : Hist (EvOk c) l := by obtain ⟨as, s, hr, rfl⟩ := h; exact (inv_run (inv_init c) hr).hist

/-! ### C78 -/

/-- An instance that is returned is of the type asked for, was initialised with success for exactly this address, and was
then started. -/
theorem got_right {c : Bool} {l r : List Ev} {t : CType} {a : Address} {i : Nat} (h : Log c (l ++ .got t a (some i) :: r)) : IsOf t i ∧ Ready l i a :=
  ⟨(h.hist.all l _ r rfl).1, (h.hist.all l _ r rfl).2.1⟩

/-- Null is returned only for an unknown type, or if in this call `init` of a new instance failed. -/
theorem got_null {c : Bool} {l r : List Ev} {t : CType} {a : Address} (h : Log c (l ++ .got t a none :: r)) : (∃ n, t = .other n) ∨ (t = .local ∧ ∃ x i, l = x ++ [.inited i a false]) :=
  (h.hist.all l _ r rfl).1

/-- A local instance is initialised at most once, and is started only then. -/
theorem init_once {c : Bool} {l r : List Ev} {i : Nat} {a b : Address} {ok k : Bool} (h : Log c (l ++ .inited i a ok :: r)) (hi : i ≠ 0) : .inited i b k ∉ l :=
  (h.hist.all l _ r rfl).1 hi b k

theorem started_when {c : Bool} {l r : List Ev} {i : Nat} (h : Log c (l ++ .started i :: r)) : ∃ x a, l = x ++ [.inited i a true] := h.hist.all l _ r rfl

/-- Two non-null results for the same type and address are the same instance (servers: unless they are closed in
between), for all addresses. -/
theorem same_instance {c : Bool} {l m r : List Ev} {t : CType} {a : Address} {i j : Nat} (h : Log c (l ++ .got t a (some i) :: m ++ .got t a (some j) :: r)) (hc : c = true → .closing ∉ m) : i = j :=
  (h.hist.all (l ++ .got t a (some i) :: m) _ r rfl).2.2.2 l m i rfl hc

/-- Local instances given for different addresses are different. -/
theorem different_instances {c : Bool} {l : List Ev} {a b : Address} {i : Nat} (h : Log c l) (ha : .got .local a (some i) ∈ l) (hb : .got .local b (some i) ∈ l) : a = b := by
  have hh := h.hist
  have key : ∀ d, .got .local d (some i) ∈ l → i ≠ 0 ∧ .inited i d true ∈ l := fun d hd => by
    obtain ⟨x, y, rfl⟩ := List.append_of_mem hd
    obtain ⟨h1, h2, -⟩ := hh.all x (.got .local d (some i)) y rfl
    refine ⟨?_, by simp [h2.mem]⟩
    rcases h1 with ⟨h1, -⟩ | ⟨-, h1⟩
    · cases h1
    · exact h1
  obtain ⟨h0, h1⟩ := key a ha
  obtain ⟨-, h2⟩ := key b hb
  obtain ⟨x, y, e1⟩ := List.append_of_mem h1
  obtain ⟨u, w, e2⟩ := List.append_of_mem h2
  rcases places (e1.symm.trans e2) with ⟨-, e, -⟩ | ⟨d, e, -⟩ | ⟨d, e, -⟩
  · cases e; rfl
  · exact absurd (by rw [e]; simp) ((hh.all u (.inited i b true) w e2).1 h0 a true)
  · exact absurd (by rw [e]; simp) ((hh.all x (.inited i a true) y e1).1 h0 b true)

/-- If no two addresses asked for conflict, asking again for what was given gives the same instance again (servers:
unless they are closed in between). -/
theorem asked_again_partial {c : Bool} {l m r : List Ev} {t : CType} {a : Address} {i : Nat} {x : Option Nat} (h : Log c (l ++ .got t a (some i) :: m ++ .got t a x :: r))
    (hn : NoConflict (l ++ .got t a (some i) :: m ++ .got t a x :: r)) (hc : c = true → .closing ∉ m) : x = some i := by
  cases x with
  | some j => rw [same_instance h hc]
  | none =>
    have h1 := (h.hist.all (l ++ .got t a (some i) :: m) _ r rfl).2 (by
      have : l ++ .got t a (some i) :: m ++ .got t a none :: r = (l ++ .got t a (some i) :: m ++ [.got t a none]) ++ r := by simp
      rw [this] at hn; exact hn.left) l m i rfl
    exact absurd h1.2 (hc h1.1)

/-- `close` stops, and then deinitialises, every local instance that was ever made (servers: and not closed before)
exactly once; all are stopped before any is deinitialised. -/
theorem close_complete {c : Bool} {l r : List Ev} (h : Log c (l ++ .closed :: r)) : ∃ x y, l = x ++ .closing :: y ∧ (∀ e ∈ y, ∃ i, e = .stopped i ∨ e = .deinited i) ∧
    (∀ i a, i ≠ 0 → .inited i a true ∈ x → (c = true → .deinited i ∉ x) → y.count (.stopped i) = 1 ∧ y.count (.deinited i) = 1) ∧
    ∀ i j, i ≠ 0 → j ≠ 0 → .stopped i ∈ y → .deinited j ∈ y → Before (.stopped i) (.deinited j) y := h.hist.all l _ r rfl

/-- A server that was closed is not given again. -/
theorem closed_server_not_given {l r : List Ev} {a : Address} {i : Nat} (h : Log true (l ++ .got .local a (some i) :: r)) : .deinited i ∉ l :=
  (h.hist.all l _ r rfl).2.2.1 rfl rfl

/-! ### Refuted -/

/-- The log of a run, for examples. -/
def logOf (c : Bool) (as : List Act) : List Ev := ((run c init as).map State.log).getD []

def a1 : Address := ⟨[97], 2⟩
def b1 : Address := ⟨[98], 1⟩

def oneTree (a : Address) : Tree Address := .node .leaf a .leaf

def asks : List Act := [.get .local a1 true (oneTree a1), .get .local b1 true (.node (.node .leaf b1 .leaf) a1 .leaf), .get .local b1 false .leaf]

/-- C78 in general: with two servers, one of which has the smaller name and the other one the smaller port, the second
client, which was given and runs, is not given again. -/
theorem not_given_again : ∃ l, Log false l ∧ l = [.inited 1 a1 true, .started 1, .got .local a1 (some 1), .inited 2 b1 true, .started 2, .got .local b1 (some 2), .inited 3 b1 false, .got .local b1 none] :=
  ⟨logOf false asks, ⟨asks, _, rfl, rfl⟩, by decide +kernel⟩

/-- C78 in general: after `close` the client factory gives clients that are stopped, and does not start them. -/
theorem stopped_given : ∃ l, Log false l ∧ l = [.inited 1 a1 true, .started 1, .got .local a1 (some 1), .closing, .stopped 1, .deinited 1, .closed, .got .local a1 (some 1)] :=
  ⟨logOf false [.get .local a1 true (oneTree a1), .close, .get .local a1 true .leaf], ⟨[.get .local a1 true (oneTree a1), .close, .get .local a1 true .leaf], _, rfl, rfl⟩, by decide +kernel⟩

/-- C78 in general: once closed, a server can not be had again at any time. -/
theorem no_server_again {l m r : List Ev} {a : Address} {i : Nat} {x : Option Nat} (h : Log true (l ++ .inited i a true :: m ++ .got .local a x :: r)) (hi : i ≠ 0) (hc : .closed ∈ m) : x = none := by
  cases x with
  | none => rfl
  | some j =>
    have hh := h.hist
    have e0 : l ++ .inited i a true :: m ++ .got .local a (some j) :: r = (l ++ .inited i a true :: m) ++ .got .local a (some j) :: r := rfl
    obtain ⟨h1, h2, h3, -⟩ := hh.all (l ++ .inited i a true :: m) _ r rfl
    have hj : j ≠ 0 := by rcases h1 with ⟨h1, -⟩ | ⟨-, h1⟩; · cases h1
                          exact h1
    have hm : .inited i a true ∈ l ++ .inited i a true :: m := by simp
    -- the successful initialisations for one name are one
    have hij : i = j := by
      have hl : Hist (EvOk true) (l ++ .inited i a true :: m) := hh.left
      obtain ⟨x, y, e1⟩ := List.append_of_mem hm
      obtain ⟨u, w, e2⟩ := List.append_of_mem h2.mem
      rcases places (e1.symm.trans e2) with ⟨-, e, -⟩ | ⟨d, e, -⟩ | ⟨d, e, -⟩
      · cases e; rfl
      · exact absurd rfl ((hl.all u (.inited j a true) w e2).2.1 hj rfl i a hi (by rw [e]; simp))
      · exact absurd rfl ((hl.all x (.inited i a true) y e1).2.1 hi rfl j a hj (by rw [e]; simp))
    subst hij
    -- it was deinitialised by then
    obtain ⟨p, q, rfl⟩ := List.append_of_mem hc
    obtain ⟨x, y, e1, e2, e3, -⟩ := hh.all (l ++ .inited i a true :: p) .closed (q ++ .got .local a (some i) :: r) (by simp)
    have hx : .inited i a true ∈ x := by
      have : .inited i a true ∈ x ++ .closing :: y := by rw [← e1]; simp
      rcases List.mem_append.1 this with h4 | h4
      · exact h4
      · rcases List.mem_cons.1 h4 with h4 | h4
        · cases h4
        · obtain ⟨n, hn | hn⟩ := e2 _ h4 <;> cases hn
    have hsub : ∀ e, e ∈ x ++ .closing :: y → e ∈ l ++ .inited i a true :: (p ++ .closed :: q) := fun e he => by
      rw [← e1] at he; simp at he ⊢; rcases he with h | h | h
      · exact .inl h
      · exact .inr (.inl h)
      · exact .inr (.inr (.inl h))
    refine absurd (hsub (.deinited i) ?_) (h3 rfl rfl)
    by_cases hd : .deinited i ∈ x
    · simp [hd]
    · have := (e3 i a hi hx (fun _ => hd)).2
      have : .deinited i ∈ y := List.count_pos_iff.1 (by rw [this]; exact Nat.one_pos)
      simp [this]

/-! ### Not vacuous -/

def served : List Act := [.get .local a1 true (oneTree a1), .get .itc a1 true (oneTree a1), .get (.other 3) a1 true .leaf, .get .local ⟨[98], 2⟩ true (.node .leaf a1 (oneTree ⟨[98], 2⟩)), .get .local a1 true .leaf, .close, .get .local a1 false .leaf, .close]

example : logOf true served = [.inited 1 a1 true, .started 1, .got .local a1 (some 1), .inited 0 a1 true, .started 0, .got .itc a1 (some 0), .got (.other 3) a1 none, .inited 2 ⟨[98], 2⟩ true, .started 2,
    .got .local ⟨[98], 2⟩ (some 2), .got .local a1 (some 1), .closing, .stopped 0, .deinited 0, .stopped 1, .stopped 2, .deinited 1, .deinited 2, .closed, .inited 3 a1 false, .got .local a1 none, .closing, .closed] := by decide +kernel

example : ¬ Conflict a1 ⟨[98], 2⟩ ∧ ¬ Conflict ⟨[98], 2⟩ a1 ∧ Conflict a1 b1 := ⟨fun h => absurd h.2 (by decide), fun h => absurd h.2 (by decide), ⟨by decide, by decide⟩⟩

end Maf.Fac
