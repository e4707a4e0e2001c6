import Verif.Lemmas.SingleSlot
/-
C115: signals that take one connection at a time.
-/
namespace Maf.One
variable {A : Type}

theorem inv {as : List (Act A)} {s : State A} (h : run (init A) as = some s) : Inv s := inv_run inv_init h

/-- Every event obeys the rules: one connection at a time; emissions call the connected function. -/
theorem rules (as : List (Act A)) (s : State A) (h : run (init A) as = some s) {l e m} (hl : s.log = l ++ e :: m) : EvOk l e := (inv h).hist.all l e m hl

/-- An emission calls the connected function, once, with the argument; and does nothing if there is none. -/
theorem emission_exact (as : List (Act A)) (s s' : State A) (h : run (init A) as = some s) (a : A) (hs : step s (.emit a) = some s') (hu : s'.ub = false) :
    (∃ n, who s.log = some n ∧ s'.log = s.log ++ [.called n a]) ∨ (who s.log = none ∧ s'.log = s.log ++ [.skipped a]) := by
  have hi := inv h
  unfold step at hs
  split at hs
  · cases hs
  simp only [body] at hs
  split at hs
  · split at hs
    · next hn => cases hs; exact .inr ⟨by rw [hi.who, hn], rfl⟩
    · next n hn =>
      split at hs
      · cases hs; cases hu
      · cases hs; exact .inl ⟨n, by rw [hi.who, hn], rfl⟩
  · cases hs

/-- `connect` connects the function exactly if no other one is connected, and the connection it returns tells. -/
theorem connect_truthful (as : List (Act A)) (s s' : State A) (h : run (init A) as = some s) (hs : step s .connect = some s') :
    (connected s' s.next = true ↔ who s.log = none) ∧ (who s'.log = some s.next ↔ who s.log = none) ∧ (who s.log ≠ none → who s'.log = who s.log) := by
  have hi := inv h
  have hi' := inv_step hi hs
  unfold step at hs
  split at hs
  · cases hs
  simp only [body] at hs
  split at hs
  · next ha =>
    split at hs
    · next hn =>
      cases hs
      rw [hi'.who, hi.who, hn]
      simp [connected, ha]
    · next n hn =>
      cases hs
      have hne : n ≠ s.next := Nat.ne_of_lt (hi.slot n hn)
      rw [hi'.who, hi.who]
      simp only [hn]
      refine ⟨?_, ?_, fun _ => by first | trivial | simp⟩
      · simp [connected, hne, hn]
      · simp [hne]
  · cases hs

/-- The connection refers to its function. -/
def Refers (s : State A) (n : Id) : Prop := s.conn n ≠ .empty

theorem connected_truthful (as : List (Act A)) (s : State A) (h : run (init A) as = some s) (n : Id) (hr : Refers s n) : connected s n = true ↔ s.alive = true ∧ who s.log = some n := by
  have hi := inv h
  rw [hi.who]
  unfold connected
  cases hc : s.conn n with
  | weak => simp
  | shared => simp [hi.shared n hc]
  | empty => exact absurd hc hr

/-- `disconnect` returns whether the function was connected, and then it is connected no longer. -/
theorem disconnect_truthful (as : List (Act A)) (s : State A) (h : run (init A) as = some s) (n : Id) :
    (disconnect s n).2 = connected s n ∧ (connected s n = true → who (disconnect s n).1.log = none ∧ Refers (disconnect s n).1 n) ∧ (connected s n = false → (disconnect s n).1.log = s.log) := by
  have hi' := inv_disconnect (inv h) n
  rw [hi'.who]
  unfold disconnect connected Refers
  cases hc : s.conn n <;> cases ha : s.alive <;> simp
  split <;> simp_all

/-- `reconnect` returns true exactly if the connection was disconnected by it, the signal exists and no function is connected; then the function is connected again. -/
theorem reconnect_partial (as : List (Act A)) (s : State A) (h : run (init A) as = some s) (n : Id) :
    ((reconnect s n).2 = true ↔ s.alive = true ∧ s.conn n = .shared ∧ who s.log = none) ∧ ((reconnect s n).2 = true → who (reconnect s n).1.log = some n ∧ connected (reconnect s n).1 n = true) ∧
      ((reconnect s n).2 = false → (reconnect s n).1.log = s.log) := by
  have hi := inv h
  have hi' := inv_reconnect hi n
  rw [hi'.who, hi.who]
  unfold reconnect
  split
  · next hc =>
    split
    · next hn => simp [hc, connected, hn]
    · next m hn => simp [hn, freed]
  · next hc =>
    refine ⟨⟨by simp, fun h => absurd ⟨h.2.1, h.1⟩ hc⟩, by simp, by simp⟩

/-- A function that has been disconnected is not called unless it is connected again. -/
theorem disconnected_not_called (as : List (Act A)) (s : State A) (h : run (init A) as = some s) {l m : List (Ev A)} {n : Id} (hl : s.log = l ++ .removed n :: m) (hn : Ev.added n ∉ m) (a : A) : Ev.called n a ∉ m := by
  intro hm
  obtain ⟨m1, m2, rfl⟩ := List.append_of_mem hm
  have hr := rules as s h (l := l ++ .removed n :: m1) (e := .called n a) (m := m2) (by rw [hl]; simp)
  have hw : ∀ x : List (Ev A), Ev.added n ∉ x → ∀ w : Option Id, w ≠ some n → x.foldl whoStep w ≠ some n := by
    intro x
    induction x with
    | nil => intro _ w hw; exact hw
    | cons e x ih =>
      intro hx w hw
      simp only [List.mem_cons, not_or] at hx
      refine ih hx.2 _ ?_
      cases e <;> simp_all [whoStep]
      exact fun e => hx.1 e.symm
  have := hr.1
  unfold who at this
  rw [List.foldl_append] at this
  refine hw m1 (fun hx => hn (List.mem_append_left _ hx)) none (by simp) ?_
  exact this

/-- A `ScopedConnection` that ends disconnects its function, and only that. -/
theorem scope_end_disconnects (as : List (Act A)) (s s' : State A) (h : run (init A) as = some s) (n : Id) (hs : step s (.scopeEnd n) = some s') :
    (connected s n = true → who s'.log = none) ∧ (connected s n = false → s'.log = s.log) ∧ connected s' n = false := by
  have hi := inv h
  have hd := disconnect_truthful as s h n
  have drop : ∀ x : State A, (dropConn x n).log = x.log ∧ connected (dropConn x n) n = false := by
    intro x; unfold dropConn; split <;> exact ⟨rfl, by simp [connected, freed]⟩
  unfold step at hs
  split at hs
  · cases hs
  simp only [body] at hs
  cases hs
  refine ⟨fun hc => ?_, fun hc => ?_, (drop _).2⟩
  · rw [if_pos hc, (drop _).1]; exact (hd.2.1 hc).1
  · rw [if_neg (by simp [hc]), (drop _).1]

/-- Not always: a `reconnect` that fails because another function is connected loses the function for ever, whatever happens afterwards: it is never called again, and cannot be connected. -/
theorem failed_reconnect_loses (as : List (Act A)) (s : State A) (h : run (init A) as = some s) (n : Id) (hn : s.conn n = .shared) (ha : s.alive = true) (ho : who s.log ≠ none) (as' : List (Act A)) (s' : State A)
    (hr : run (reconnect s n).1 as' = some s') : (reconnect s n).2 = false ∧ (∃ es, s'.log = s.log ++ es ∧ ∀ a, Ev.called n a ∉ es) ∧ connected s' n = false ∧ (reconnect s' n).2 = false := by
  have hi := inv h
  have h1 : (reconnect s n).2 = false := by
    cases e : (reconnect s n).2 with
    | false => rfl
    | true => exact absurd (((reconnect_partial as s h n).1.1 e).2.2) ho
  have hl : Lost (reconnect s n).1 n := by
    unfold reconnect at h1 ⊢
    rw [if_pos ⟨hn, ha⟩] at h1 ⊢
    cases e : s.slot with
    | none => rw [e] at h1; simp at h1
    | some m =>
      simp only
      refine ⟨?_, by simp [freed], ?_⟩
      · have := hi.shared n hn
        rw [e] at this; simpa [freed] using this
      · exact hi.conn n (by rw [hn]; simp)
  obtain ⟨⟨l1, l2, l3⟩, es, h2, h3⟩ := lost_run hl hr
  refine ⟨h1, ⟨es, ?_, fun a => (h3 a).1⟩, ?_, ?_⟩
  · rw [h2, (reconnect_partial as s h n).2.2 h1]
  · simp [connected, l1]
  · unfold reconnect; rw [if_neg (fun hc => l2 hc.1)]

/-- Its hypotheses hold: function 0 disconnected, function 1 connected. -/
example : (run (init Nat) [.connect, .disconnect 0, .connect]).map (fun s => (s.conn 0, s.alive, who s.log, (reconnect s 0).2)) = some (.shared, true, some 1, false) := by decide +kernel

/-- The second function is refused; after the first is disconnected, reconnecting works, and emissions call it. -/
example : (run (init Nat) [.connect, .emit 4, .ret, .connect, .emit 5, .ret, .disconnect 0, .emit 6, .reconnect 0, .emit 7, .ret]).map (fun s => (s.ub, s.log)) =
    some (false, [.added 0, .called 0 4, .returned 0, .refused 1, .called 0 5, .returned 0, .removed 0, .skipped 6, .added 0, .called 0 7, .returned 0]) := by decide +kernel

/-- A function may disconnect itself, and connect another one, while it is called; the new one is called by the next emission. -/
example : (run (init Nat) [.connect, .emit 4, .disconnect 0, .connect, .ret, .emit 5]).map (fun s => (s.ub, s.log)) =
    some (false, [.added 0, .called 0 4, .removed 0, .added 1, .returned 0, .called 1 5]) := by decide +kernel

/-- Not always: a function that clears its signal, or loses its connection after disconnecting, is destroyed while it is called. -/
theorem self_destroyed : (run (init Nat) [.connect, .emit 4, .clear]).map (fun s => s.ub) = some true ∧ (run (init Nat) [.connect, .emit 4, .scopeEnd 0]).map (fun s => s.ub) = some true ∧
    (run (init Nat) [.connect, .emit 4, .destroy]).map (fun s => s.ub) = some true := by decide +kernel

/-- Otherwise the function being called exists. -/
theorem called_exists (as : List (Act A)) (s : State A) (h : run (init A) as = some s) (hu : s.ub = false) (n : Id) (hb : busy s.log = some n) : s.slot = some n ∨ s.conn n = .shared :=
  (inv h).runs hu n (by rw [← (inv h).busy]; exact hb)

end Maf.One
