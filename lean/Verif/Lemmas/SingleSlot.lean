import Verif.Lemmas.Hist
import Verif.Spec.SingleSlot
namespace Maf.One
variable {A : Type}

theorem who_snoc (l : List (Ev A)) (e : Ev A) : who (l ++ [e]) = whoStep (who l) e := by simp [who]
theorem busy_snoc (l : List (Ev A)) (e : Ev A) : busy (l ++ [e]) = busyStep (busy l) e := by simp [busy]

@[simp] theorem set_same (f : Id → Link) (n : Id) (x : Link) : set f n x n = x := by simp [set]
theorem set_other (f : Id → Link) {n m : Id} (x : Link) (h : m ≠ n) : set f n x m = f m := by simp [set, h]

structure Inv (s : State A) : Prop where
  who : who s.log = s.slot
  busy : busy s.log = s.running
  hist : Hist EvOk s.log
  /-- functions that exist have been made -/
  conn : ∀ n, s.conn n ≠ .empty → n < s.next
  added : ∀ n, Ev.added n ∈ s.log → n < s.next
  slot : ∀ n, s.slot = some n → n < s.next
  /-- a connection that holds its function has disconnected it -/
  shared : ∀ n, s.conn n = .shared → s.slot ≠ some n
  /-- the function being called exists -/
  runs : s.ub = false → ∀ n, s.running = some n → s.slot = some n ∨ s.conn n = .shared
  dead : s.alive = false → s.slot = none

theorem inv_init : Inv (init A) := by
  refine ⟨rfl, rfl, .nil, ?_, ?_, ?_, ?_, ?_, ?_⟩ <;> simp [init]

theorem freed_same (s : State A) (n : Id) : (freed s n).slot = s.slot ∧ (freed s n).next = s.next ∧ (freed s n).conn = s.conn ∧ (freed s n).running = s.running ∧ (freed s n).alive = s.alive ∧ (freed s n).log = s.log :=
  ⟨rfl, rfl, rfl, rfl, rfl, rfl⟩

theorem inv_disconnect {s : State A} (h : Inv s) (n : Id) : Inv (disconnect s n).1 := by
  unfold disconnect
  split
  · next hw =>
    split
    · split
      · next hs =>
        have hn : n < s.next := h.slot n hs
        refine ⟨?_, ?_, h.hist.one ?_, ?_, ?_, ?_, ?_, ?_, ?_⟩
        · simp only; rw [who_snoc]; rfl
        · simp only; rw [busy_snoc]; exact h.busy
        · show Maf.One.who s.log = some n; rw [h.who, hs]
        · intro m hm; simp only at hm
          by_cases e : m = n
          · subst e; exact hn
          · rw [set_other _ _ e] at hm; exact h.conn m hm
        · intro m hm; simp at hm; exact h.added m hm
        · intro m hm; simp at hm
        · intro m hm; simp
        · intro hu m hm
          simp only at hm ⊢
          by_cases e : m = n
          · subst e; exact .inr (by simp)
          · rcases h.runs hu m hm with h1 | h1
            · rw [hs] at h1; cases h1; exact absurd rfl e
            · exact .inr (by rw [set_other _ _ e]; exact h1)
        · intro _; rfl
      · exact h
    · refine ⟨h.who, h.busy, h.hist, ?_, h.added, h.slot, ?_, ?_, h.dead⟩
      · intro m hm; simp only at hm
        by_cases e : m = n
        · subst e; simp at hm
        · rw [set_other _ _ e] at hm; exact h.conn m hm
      · intro m hm; simp only at hm
        by_cases e : m = n
        · subst e; simp at hm
        · rw [set_other _ _ e] at hm; exact h.shared m hm
      · intro hu m hm
        simp only at hm ⊢
        rcases h.runs hu m hm with h1 | h1
        · exact .inl h1
        · refine .inr ?_
          by_cases e : m = n
          · subst e; rw [hw] at h1; cases h1
          · rw [set_other _ _ e]; exact h1
  · exact h

theorem inv_lose {s : State A} (h : Inv s) (n : Id) (hs : s.conn n = .shared) : Inv (freed { s with conn := set s.conn n .empty } n) := by
  refine ⟨h.who, h.busy, h.hist, ?_, h.added, h.slot, ?_, ?_, h.dead⟩
  · intro m hm; simp only [freed] at hm
    by_cases e : m = n
    · subst e; simp at hm
    · rw [set_other _ _ e] at hm; exact h.conn m hm
  · intro m hm; simp only [freed] at hm
    by_cases e : m = n
    · subst e; simp at hm
    · rw [set_other _ _ e] at hm; exact h.shared m hm
  · intro hu m hm
    simp only [freed, Bool.or_eq_false_iff] at hm hu ⊢
    rcases h.runs hu.1 m hm with h1 | h1
    · exact .inl h1
    · refine .inr ?_
      by_cases e : m = n
      · subst e; rw [hm] at hu; simp at hu
      · rw [set_other _ _ e]; exact h1

theorem inv_reconnect {s : State A} (h : Inv s) (n : Id) : Inv (reconnect s n).1 := by
  unfold reconnect
  split
  · next hc =>
    split
    · next hs =>
      have hn : n < s.next := h.conn n (by rw [hc.1]; simp)
      refine ⟨?_, ?_, h.hist.one ?_, ?_, ?_, ?_, ?_, ?_, ?_⟩
      · simp only; rw [who_snoc]; rfl
      · simp only; rw [busy_snoc]; exact h.busy
      · show Maf.One.who s.log = none; rw [h.who, hs]
      · intro m hm; simp only at hm
        by_cases e : m = n
        · subst e; exact hn
        · rw [set_other _ _ e] at hm; exact h.conn m hm
      · intro m hm; simp at hm
        rcases hm with hm | rfl
        · exact h.added m hm
        · exact hn
      · intro m hm; simp at hm; subst hm; exact hn
      · intro m hm; simp only at hm ⊢
        by_cases e : m = n
        · subst e; simp at hm
        · intro e'; cases e'; exact e rfl
      · intro hu m hm
        simp only at hm ⊢
        rcases h.runs hu m hm with h1 | h1
        · rw [hs] at h1; cases h1
        · by_cases e : m = n
          · subst e; exact .inl rfl
          · exact .inr (by rw [set_other _ _ e]; exact h1)
      · intro hd; simp only at hd; rw [hc.2] at hd; cases hd
    · exact inv_lose h n hc.1
  · exact h

theorem inv_drop {s : State A} (h : Inv s) (n : Id) : Inv (dropConn s n) := by
  unfold dropConn
  split
  · next hs => exact inv_lose h n hs
  · next hs =>
    refine ⟨h.who, h.busy, h.hist, ?_, h.added, h.slot, ?_, ?_, h.dead⟩
    · intro m hm; simp only at hm
      by_cases e : m = n
      · subst e; simp at hm
      · rw [set_other _ _ e] at hm; exact h.conn m hm
    · intro m hm; simp only at hm
      by_cases e : m = n
      · subst e; simp at hm
      · rw [set_other _ _ e] at hm; exact h.shared m hm
    · intro hu m hm
      simp only at hm ⊢
      rcases h.runs hu m hm with h1 | h1
      · exact .inl h1
      · refine .inr ?_
        by_cases e : m = n
        · subst e; exact absurd h1 hs
        · rw [set_other _ _ e]; exact h1

theorem inv_clear {s : State A} (h : Inv s) : Inv (clear s) := by
  unfold clear
  split
  · exact h
  · next n hs =>
    refine ⟨?_, ?_, h.hist.one ?_, h.conn, ?_, ?_, ?_, ?_, ?_⟩
    · simp only [freed]; rw [who_snoc]; rfl
    · simp only [freed]; rw [busy_snoc]; exact h.busy
    · show Maf.One.who s.log = some n; rw [h.who, hs]
    · intro m hm; simp [freed] at hm; exact h.added m hm
    · intro m hm; simp [freed] at hm
    · intro m hm; simp [freed]
    · intro hu m hm
      simp only [freed, Bool.or_eq_false_iff] at hm hu ⊢
      rcases h.runs hu.1 m hm with h1 | h1
      · rw [hs] at h1; cases h1; rw [hm] at hu; simp at hu
      · exact .inr h1
    · intro _; rfl

theorem clear_slot (s : State A) : (clear s).slot = none := by unfold clear; split <;> simp_all [freed]

theorem inv_step {s s' : State A} {a : Act A} (h : Inv s) (hs : step s a = some s') : Inv s' := by
  unfold step at hs
  split at hs
  · cases hs
  next hu =>
  cases a with
  | connect =>
    simp only [body] at hs
    split at hs
    · next ha =>
      split at hs
      · next hn =>
        cases hs
        refine ⟨?_, ?_, h.hist.one ?_, ?_, ?_, ?_, ?_, ?_, ?_⟩
        · simp only; rw [who_snoc]; rfl
        · simp only; rw [busy_snoc]; exact h.busy
        · show Maf.One.who s.log = none; rw [h.who, hn]
        · intro m hm; simp only at hm ⊢
          by_cases e : m = s.next
          · subst e; exact Nat.lt_succ_self _
          · rw [set_other _ _ e] at hm; exact Nat.lt_succ_of_lt (h.conn m hm)
        · intro m hm; simp at hm
          rcases hm with hm | rfl
          · exact Nat.lt_succ_of_lt (h.added m hm)
          · exact Nat.lt_succ_self _
        · intro m hm; simp at hm; subst hm; exact Nat.lt_succ_self _
        · intro m hm; simp only at hm ⊢
          by_cases e : m = s.next
          · subst e; simp at hm
          · intro e'; cases e'; exact e rfl
        · intro hu m hm
          simp only at hm ⊢
          rcases h.runs hu m hm with h1 | h1
          · rw [hn] at h1; cases h1
          · have : m ≠ s.next := Nat.ne_of_lt (h.conn m (by rw [h1]; simp))
            exact .inr (by rw [set_other _ _ this]; exact h1)
        · intro hd; simp only at hd; rw [ha] at hd; cases hd
      · next n hn =>
        cases hs
        refine ⟨?_, ?_, h.hist.one ⟨⟨n, by rw [h.who, hn]⟩, fun hm => Nat.lt_irrefl _ (h.added _ hm)⟩, fun m hm => Nat.lt_succ_of_lt (h.conn m hm), ?_, fun m hm => Nat.lt_succ_of_lt (h.slot m hm), h.shared, h.runs, h.dead⟩
        · simp only; rw [who_snoc]; exact h.who
        · simp only; rw [busy_snoc]; exact h.busy
        · intro m hm; simp at hm; exact Nat.lt_succ_of_lt (h.added m hm)
    · cases hs
  | disconnect n => cases hs; exact inv_disconnect h n
  | reconnect n => cases hs; exact inv_reconnect h n
  | drop n => cases hs; exact inv_drop h n
  | scopeEnd n =>
    simp only [body] at hs
    cases hs
    split
    · exact inv_drop (inv_disconnect h n) n
    · exact inv_drop h n
  | clear =>
    simp only [body] at hs
    split at hs <;> cases hs
    exact inv_clear h
  | emit a =>
    simp only [body] at hs
    split at hs
    · split at hs
      · next hn =>
        cases hs
        refine ⟨?_, ?_, h.hist.one (show Maf.One.who s.log = none by rw [h.who, hn]), h.conn, ?_, h.slot, h.shared, h.runs, h.dead⟩
        · simp only; rw [who_snoc]; exact h.who
        · simp only; rw [busy_snoc]; exact h.busy
        · intro m hm; simp at hm; exact h.added m hm
      · next n hn =>
        split at hs
        · cases hs
          exact ⟨h.who, h.busy, h.hist, h.conn, h.added, h.slot, h.shared, by simp, h.dead⟩
        · next hr =>
          cases hs
          have hr : s.running = none := by cases e : s.running with
            | none => rfl
            | some _ => rw [e] at hr; simp at hr
          refine ⟨?_, ?_, h.hist.one ⟨by rw [h.who, hn], by rw [h.busy, hr]⟩, h.conn, ?_, h.slot, h.shared, ?_, h.dead⟩
          · simp only; rw [who_snoc]; exact h.who
          · simp only; rw [busy_snoc]; rfl
          · intro m hm; simp at hm; exact h.added m hm
          · intro _ m hm; simp at hm; subst hm; exact .inl hn
    · cases hs
  | ret =>
    simp only [body] at hs
    split at hs
    · next n hn =>
      cases hs
      refine ⟨?_, ?_, h.hist.one (show Maf.One.busy s.log = some n by rw [h.busy, hn]), h.conn, ?_, h.slot, h.shared, by simp, h.dead⟩
      · simp only; rw [who_snoc]; exact h.who
      · simp only; rw [busy_snoc]; rfl
      · intro m hm; simp at hm; exact h.added m hm
    · cases hs
  | destroy =>
    simp only [body] at hs
    split at hs <;> cases hs
    have hc := inv_clear h
    exact ⟨hc.who, hc.busy, hc.hist, hc.conn, hc.added, hc.slot, hc.shared, hc.runs, fun _ => clear_slot s⟩

theorem inv_run {as : List (Act A)} {s s' : State A} (h : Inv s) (hr : run s as = some s') : Inv s' := by
  induction as generalizing s with
  | nil => cases hr; exact h
  | cons a as ih =>
    simp only [run] at hr
    cases hs : step s a with
    | none => rw [hs] at hr; cases hr
    | some s1 => rw [hs] at hr; exact ih (inv_step h hs) hr

/-- Nothing refers to the function any more. -/
def Lost (s : State A) (n : Id) : Prop := s.slot ≠ some n ∧ s.conn n ≠ .shared ∧ n < s.next

theorem lost_disconnect {s : State A} {n : Id} (h : Lost s n) (m : Id) : Lost (disconnect s m).1 n ∧ ∃ es, (disconnect s m).1.log = s.log ++ es ∧ ∀ a, Ev.called n a ∉ es ∧ Ev.added n ∉ es := by
  obtain ⟨h1, h2, h3⟩ := h
  unfold disconnect
  split
  · split
    · split
      · next hs =>
        have e : n ≠ m := by rintro rfl; exact h1 hs
        exact ⟨⟨by simp, by simp only; rw [set_other _ _ e]; exact h2, h3⟩, _, rfl, by simp⟩
      · exact ⟨⟨h1, h2, h3⟩, [], by simp, by simp⟩
    · refine ⟨⟨h1, ?_, h3⟩, [], by simp, by simp⟩
      by_cases e : n = m
      · subst e; simp
      · simp only; rw [set_other _ _ e]; exact h2
  · exact ⟨⟨h1, h2, h3⟩, [], by simp, by simp⟩

theorem lost_drop {s : State A} {n : Id} (h : Lost s n) (m : Id) : Lost (dropConn s m) n ∧ (dropConn s m).log = s.log := by
  obtain ⟨h1, h2, h3⟩ := h
  have h4 : set s.conn m .empty n ≠ .shared := by
    by_cases e : n = m
    · subst e; simp
    · rw [set_other _ _ e]; exact h2
  unfold dropConn
  split <;> exact ⟨⟨h1, h4, h3⟩, rfl⟩

theorem lost_clear {s : State A} {n : Id} (h : Lost s n) : Lost (clear s) n ∧ ∃ es, (clear s).log = s.log ++ es ∧ ∀ a, Ev.called n a ∉ es ∧ Ev.added n ∉ es := by
  obtain ⟨h1, h2, h3⟩ := h
  unfold clear
  split
  · exact ⟨⟨h1, h2, h3⟩, [], by simp, by simp⟩
  · exact ⟨⟨by simp [freed], h2, h3⟩, _, rfl, by simp⟩

theorem lost_step {s s' : State A} {a : Act A} {n : Id} (h : Lost s n) (hs : step s a = some s') : Lost s' n ∧ ∃ es, s'.log = s.log ++ es ∧ ∀ a, Ev.called n a ∉ es ∧ Ev.added n ∉ es := by
  have h' := h
  obtain ⟨h1, h2, h3⟩ := h'
  unfold step at hs
  split at hs
  · cases hs
  cases a with
  | connect =>
    simp only [body] at hs
    split at hs
    · split at hs
      · cases hs
        have e : n ≠ s.next := Nat.ne_of_lt h3
        refine ⟨⟨?_, ?_, Nat.lt_succ_of_lt h3⟩, _, rfl, ?_⟩
        · simp; exact Ne.symm e
        · simp only; rw [set_other _ _ e]; exact h2
        · simp [e]
      · cases hs
        exact ⟨⟨h1, h2, Nat.lt_succ_of_lt h3⟩, _, rfl, by simp⟩
    · cases hs
  | disconnect m => cases hs; exact lost_disconnect h m
  | reconnect m =>
    cases hs
    show Lost (reconnect s m).1 n ∧ _
    unfold reconnect
    split
    · next hc =>
      have e : n ≠ m := by rintro rfl; exact h2 hc.1
      split
      · refine ⟨⟨?_, ?_, h3⟩, _, rfl, ?_⟩
        · simp; exact Ne.symm e
        · simp only; rw [set_other _ _ e]; exact h2
        · simp [e]
      · exact ⟨⟨h1, by simp only [freed]; rw [set_other _ _ e]; exact h2, h3⟩, [], by simp [freed], by simp⟩
    · exact ⟨h, [], by simp, by simp⟩
  | drop m => cases hs; obtain ⟨h4, h5⟩ := lost_drop h m; exact ⟨h4, [], by simp [h5], by simp⟩
  | scopeEnd m =>
    simp only [body] at hs
    cases hs
    split
    · obtain ⟨h4, es, h5, h6⟩ := lost_disconnect h m
      obtain ⟨h7, h8⟩ := lost_drop h4 m
      exact ⟨h7, es, by rw [h8, h5], h6⟩
    · obtain ⟨h4, h5⟩ := lost_drop h m; exact ⟨h4, [], by simp [h5], by simp⟩
  | clear =>
    simp only [body] at hs
    split at hs <;> cases hs
    exact lost_clear h
  | emit a =>
    simp only [body] at hs
    split at hs
    · split at hs
      · cases hs; exact ⟨h, _, rfl, by simp⟩
      · next m hm =>
        split at hs
        · cases hs; exact ⟨h, [], by simp, by simp⟩
        · cases hs
          refine ⟨h, _, rfl, ?_⟩
          intro b
          have : n ≠ m := by rintro rfl; exact h1 hm
          simp [this]
    · cases hs
  | ret =>
    simp only [body] at hs
    split at hs
    · cases hs; exact ⟨h, _, rfl, by simp⟩
    · cases hs
  | destroy =>
    simp only [body] at hs
    split at hs <;> cases hs
    obtain ⟨h4, es, h5, h6⟩ := lost_clear h
    exact ⟨h4, es, h5, h6⟩

theorem lost_run {as : List (Act A)} {s s' : State A} {n : Id} (h : Lost s n) (hr : run s as = some s') : Lost s' n ∧ ∃ es, s'.log = s.log ++ es ∧ ∀ a, Ev.called n a ∉ es ∧ Ev.added n ∉ es := by
  induction as generalizing s with
  | nil => cases hr; exact ⟨h, [], by simp, by simp⟩
  | cons a as ih =>
    simp only [run] at hr
    cases hs : step s a with
    | none => rw [hs] at hr; cases hr
    | some s1 =>
      rw [hs] at hr
      obtain ⟨h1, e1, l1, k1⟩ := lost_step h hs
      obtain ⟨h2, e2, l2, k2⟩ := ih h1 hr
      refine ⟨h2, e1 ++ e2, by rw [l2, l1]; simp, fun a => ?_⟩
      simp only [List.mem_append, not_or]
      exact ⟨⟨(k1 a).1, (k2 a).1⟩, (k1 a).2, (k2 a).2⟩

end Maf.One
