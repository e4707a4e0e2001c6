import Verif.Lemmas.SignalThrow

/-!
# C126: a signal whose slots throw

The full property — after any history each call gives what it should, also after exceptions:
`∀ c ops, run c start ops = idealRun [] ops` — is refuted for both builds (`count_wrong`, `emission_aborts`): an exception leaves `notifying_` set.
Proved: with asserts compiled out, everything but `connectionCount` and `connected` is as it should be in every history, with exceptions; these two never say too little, and are right until
the first exception and again from the next emission on that calls slots and ends without one.
With asserts, all is right up to and including the first exception, and the next emission that has slots to call ends the program.
-/
namespace Maf.Exn

/-! ## Asserts compiled out -/

private theorem lives (ops : List Op) : ∀ (s : State) (i : Nat) (op : Op), ops[i]? = some op → op.asksCount = false →
    (run false s ops)[i]? = (idealRun (live s) ops)[i]? := by
  induction ops with
  | nil => intro s i op h; simp at h
  | cons o os ih =>
    intro s i op h ha
    rw [run_cons _ _ _ _ (unchecked_lives s o), idealRun]
    obtain ⟨h1, h2⟩ := step_live false s o (unchecked_lives s o)
    cases i with
    | zero =>
      simp only [List.getElem?_cons_zero, Option.some.injEq] at h ⊢
      subst h; exact h2 ha
    | succ i =>
      simp only [List.getElem?_cons_succ] at h ⊢
      rw [ih _ i op h ha, h1]

/-- Every history, with any exceptions: emissions call exactly the connected slots in order up to the one that throws; connecting, disconnecting and the handles' answers are as they should be. -/
theorem used_after_exceptions (ops : List Op) (i : Nat) (op : Op) (h : ops[i]? = some op) (ha : op.asksCount = false) :
    (run false start ops)[i]? = (idealRun [] ops)[i]? := lives ops start i op h ha

example : (run false start [.connect 1, .connect 2, .connect 1, .emit (fun k => k == 1), .disconnect 1, .reconnect 2, .has 1,
      .emit (fun _ => false)])
    = [.bool true, .bool true, .bool true, .calls [1, 2] true, .bool true, .bool false, .bool true, .calls [2, 1] false] := rfl

/-- `connectionCount` and `connected` never say too little. -/
theorem counts_enough (ops : List Op) (i n : Nat) (h : (run false start ops)[i]? = some (.num n)) :
    ∃ m, (idealRun [] ops)[i]? = some (.num m) ∧ m ≤ n := by
  suffices ∀ (s : State), (run false s ops)[i]? = some (.num n) → ∃ m, (idealRun (live s) ops)[i]? = some (.num m) ∧ m ≤ n from this start h
  clear h
  induction ops generalizing i with
  | nil => intro s h; simp [run] at h
  | cons o os ih =>
    intro s h
    rw [run_cons _ _ _ _ (unchecked_lives s o)] at h
    rw [idealRun, ← (step_live false s o (unchecked_lives s o)).1]
    cases i with
    | zero =>
      simp only [List.getElem?_cons_zero, Option.some.injEq] at h ⊢
      cases o with
      | count => simp only [step, Out.num.injEq] at h; subst h; exact ⟨_, rfl, live_le s⟩
      | emit t => simp only [step, notify] at h; (repeat' split at h) <;> simp at h
      | reconnect x => simp only [step] at h; split at h <;> simp at h
      | _ => simp [step] at h
    | succ i => simp only [List.getElem?_cons_succ] at h ⊢; exact ih i _ h

/-- A signal that says it has no connections has none. -/
theorem none_connected (ops : List Op) (i : Nat) (ho : ops[i]? = some .connected) (h : (run false start ops)[i]? = some (.bool false)) :
    (idealRun [] ops)[i]? = some (.bool false) := by
  suffices ∀ (s : State), (run false s ops)[i]? = some (.bool false) → (idealRun (live s) ops)[i]? = some (.bool false) from this start h
  clear h
  induction ops generalizing i with
  | nil => intro s h; simp [run] at h
  | cons o os ih =>
    intro s h
    rw [run_cons _ _ _ _ (unchecked_lives s o)] at h
    rw [idealRun, ← (step_live false s o (unchecked_lives s o)).1]
    cases i with
    | zero =>
      simp only [List.getElem?_cons_zero, Option.some.injEq] at h ho ⊢
      subst ho
      simp only [step, Out.bool.injEq, Bool.not_eq_eq_eq_not, Bool.not_false, List.isEmpty_iff] at h
      simp [ideal, live, h]
    | succ i => simp only [List.getElem?_cons_succ] at h ho ⊢; exact ih i ho _ h

/-- It may say too much: the function that was disconnected still counts, and `connected` says so too. -/
theorem count_wrong :
    run false start [.connect 1, .emit (fun _ => true), .disconnect 1, .count, .connected]
      = [.bool true, .calls [1] true, .bool true, .num 1, .bool true] ∧
    idealRun [] [.connect 1, .emit (fun _ => true), .disconnect 1, .count, .connected]
      = [.bool true, .calls [1] true, .bool true, .num 0, .bool false] := ⟨rfl, rfl⟩

/-! ## Until the first exception -/

private theorem prefix_state (c : Bool) (pre : List Op) : ∀ (s : State), Clean s → s.notifying = false →
    (∀ o ∈ idealRun (live s) pre, o.threw = false) →
    ∃ s', Clean s' ∧ s'.notifying = false ∧ live s' = slotsAfter (live s) pre ∧
      ∀ rest, run c s (pre ++ rest) = idealRun (live s) pre ++ run c s' rest := by
  induction pre with
  | nil => intro s hc hn _; exact ⟨s, hc, hn, rfl, fun _ => rfl⟩
  | cons o os ih =>
    intro s hc hn h
    obtain ⟨h1, h2, h3⟩ := step_exact c s o hc hn
    have hna : (step c s o).2 ≠ .aborted := by rw [h1]; cases o <;> simp [ideal]
    simp only [idealRun, List.mem_cons, forall_eq_or_imp] at h
    obtain ⟨s', a1, a2, a3, a4⟩ := ih (step c s o).1 (step_clean c s o hc) (by rw [h3]; exact h.1) (by rw [h2]; exact h.2)
    refine ⟨s', a1, a2, ?_, fun rest => ?_⟩
    · rw [a3, h2]; rfl
    · rw [List.cons_append, run_cons c s o _ hna, a4 rest, h1, h2]; rfl

private theorem clean_start : Clean start := fun _ => by simp [start]

/-- Both builds, also for the counts: everything is as it should be up to and including the first call that ends with an exception. -/
theorem exact_until_exception_partial (c : Bool) (pre : List Op) (op : Op) (h : ∀ o ∈ idealRun [] pre, o.threw = false) :
    run c start (pre ++ [op]) = idealRun [] (pre ++ [op]) := by
  obtain ⟨s', a1, a2, a3, a4⟩ := prefix_state c pre start clean_start rfl h
  have key : idealRun [] (pre ++ [op]) = idealRun [] pre ++ [(ideal (slotsAfter [] pre) op).2] := by
    clear h a1 a2 a3 a4 s'
    suffices ∀ l, idealRun l (pre ++ [op]) = idealRun l pre ++ [(ideal (slotsAfter l pre) op).2] from this []
    induction pre with
    | nil => intro l; rfl
    | cons o os ih => intro l; simp [idealRun, slotsAfter, ih]
  have h1 := (step_exact c s' op a1 a2).1
  have hna : (step c s' op).2 ≠ .aborted := by rw [h1]; cases op <;> simp [ideal]
  have a4' := a4 [op]
  rw [run_cons c s' op [] hna, h1, a3] at a4'
  rw [a4', key]
  rfl

example : (∀ o ∈ idealRun [] [.connect 1, .connect 1, .emit (fun _ => false), .disconnect 1], o.threw = false) ∧
    run true start ([.connect 1, .connect 1, .emit (fun _ => false), .disconnect 1] ++ [.count])
      = [.bool true, .bool true, .calls [1, 1] false, .bool true, .num 1] := ⟨by decide, rfl⟩

/-- Asserts compiled out: after any history, an emission that calls a slot and ends without an exception makes everything right again, the counts too. -/
theorem right_again (ops pre : List Op) (t : Nat → Bool) (op : Op)
    (h1 : slotsAfter [] ops ≠ []) (h2 : (ideal (slotsAfter [] ops) (.emit t)).2.threw = false)
    (h3 : ∀ o ∈ idealRun (slotsAfter [] ops) pre, o.threw = false) :
    (run false start (ops ++ .emit t :: pre ++ [op]))[ops.length + 1 + pre.length]?
      = some (ideal (slotsAfter [] (ops ++ .emit t :: pre)) op).2 := by
  suffices ∀ s : State, Clean s → slotsAfter (live s) ops ≠ [] → (ideal (slotsAfter (live s) ops) (.emit t)).2.threw = false →
      (∀ o ∈ idealRun (slotsAfter (live s) ops) pre, o.threw = false) →
      (run false s (ops ++ .emit t :: pre ++ [op]))[ops.length + 1 + pre.length]?
        = some (ideal (slotsAfter (live s) (ops ++ .emit t :: pre)) op).2 from this start clean_start h1 h2 h3
  clear h1 h2 h3
  induction ops with
  | cons o os ih =>
    intro s hc h1 h2 h3
    have hs := (step_live false s o (unchecked_lives s o)).1
    have := ih (step false s o).1 (step_clean false s o hc) (by rw [hs]; exact h1) (by rw [hs]; exact h2) (by rw [hs]; exact h3)
    rw [List.cons_append, List.cons_append, run_cons _ _ _ _ (unchecked_lives s o)]
    simp only [List.length_cons, Nat.add_right_comm _ 1, List.getElem?_cons_succ, slotsAfter, List.cons_append]
    rw [← hs, ← this]
    simp [Nat.add_right_comm _ 1]
  | nil =>
    intro s hc h1 h2 h3
    simp only [slotsAfter] at h1 h2 h3
    have hl : s.slots ≠ [] := fun e => h1 (by simp [live, e])
    have hst : step false s (.emit t) = ({ slots := (loop t 0 s.slots).2.1, notifying := (loop t 0 s.slots).2.2 },
        .calls (loop t 0 s.slots).1 (loop t 0 s.slots).2.2) := by
      simp [step, notify, hl]
    have hs := (step_live false s (.emit t) (unchecked_lives s _)).1
    have hn : (step false s (.emit t)).1.notifying = false := by
      have ho := (step_live false s (.emit t) (unchecked_lives s _)).2 rfl
      rw [← ho, hst] at h2
      rw [hst]; exact h2
    have hs' : live (step false s (.emit t)).1 = live s := hs
    obtain ⟨s', a1, a2, a3, a4⟩ := prefix_state false pre (step false s (.emit t)).1 (step_clean false s _ hc) hn (by rw [hs']; exact h3)
    rw [List.nil_append, List.cons_append, run_cons _ _ _ _ (unchecked_lives s _)]
    simp only [List.length_nil, Nat.zero_add, Nat.add_comm 1, List.getElem?_cons_succ]
    rw [a4 [op], run_cons _ _ _ _ (unchecked_lives s' op), (step_exact false s' op a1 a2).1, a3, hs']
    have hlen : ∀ (os : List Op) (l : List SlotId), (idealRun l os).length = os.length := by
      intro os; induction os with
      | nil => intro l; rfl
      | cons o os ih => intro l; simp [idealRun, ih]
    rw [List.getElem?_append_right (by rw [hlen]; omega)]
    simp only [hlen, Nat.sub_self, List.getElem?_cons_zero]
    rfl

example : (run false start ([.connect 1, .connect 2, .emit (fun _ => true), .disconnect 1] ++ .emit (fun _ => false) :: [.connect 3] ++ [.count]))[4 + 1 + 1]?
    = some (.num 2) := rfl

/-! ## With asserts -/

/-- After an exception the next emission ends the program, if there are slots to call. -/
theorem ends_program (pre mid : List Op) (t u : Nat → Bool) (rest : List Op)
    (h1 : ∀ o ∈ idealRun [] pre, o.threw = false) (h2 : (ideal (slotsAfter [] pre) (.emit t)).2.threw = true)
    (h3 : ∀ o ∈ mid, o.isEmit = false) (h4 : slotsAfter [] (pre ++ .emit t :: mid) ≠ []) :
    (run true start (pre ++ .emit t :: mid ++ .emit u :: rest)).getLast? = some .aborted ∧
    (run true start (pre ++ .emit t :: mid ++ .emit u :: rest)).length = pre.length + 1 + mid.length + 1 := by
  have hlen : ∀ (os : List Op) (l : List SlotId), (idealRun l os).length = os.length := by
    intro os; induction os with
    | nil => intro l; rfl
    | cons o os ih => intro l; simp [idealRun, ih]
  obtain ⟨s', a1, a2, a3, a4⟩ := prefix_state true pre start clean_start rfl h1
  have hl : live start = [] := rfl
  rw [hl] at a3 a4
  rw [List.append_assoc, a4, List.cons_append]
  obtain ⟨e1, e2, e3⟩ := step_exact true s' (.emit t) a1 a2
  have hna : (step true s' (.emit t)).2 ≠ .aborted := by rw [e1]; simp [ideal]
  rw [run_cons _ _ _ _ hna]
  have hmid : ∀ (os : List Op), (∀ o ∈ os, o.isEmit = false) → ∀ s : State, s.notifying = true → slotsAfter (live s) os ≠ [] →
      (run true s (os ++ .emit u :: rest)).getLast? = some .aborted ∧ (run true s (os ++ .emit u :: rest)).length = os.length + 1 := by
    intro os
    induction os with
    | nil =>
      intro _ s hn hne
      have hs : s.slots ≠ [] := fun e => hne (by simp [slotsAfter, live, e])
      have : step true s (.emit u) = (s, .aborted) := by simp [step, notify, hs, hn]
      simp [run, this]
    | cons o os ih =>
      intro hq s hn hne
      have ho : o.isEmit = false := hq o (by simp)
      have hna : (step true s o).2 ≠ .aborted := by
        cases o with
        | emit _ => simp [Op.isEmit] at ho
        | reconnect x => simp only [step]; split <;> simp
        | _ => simp [step]
      have hn' : (step true s o).1.notifying = true := by
        cases o with
        | emit _ => simp [Op.isEmit] at ho
        | reconnect x => simp only [step]; split <;> exact hn
        | disconnect x => simp only [step, remove]; (repeat' split) <;> simp_all
        | _ => exact hn
      have hs := (step_live true s o hna).1
      obtain ⟨b1, b2⟩ := ih (fun o' h' => hq o' (by simp [h'])) _ hn' (by rw [hs]; exact hne)
      rw [List.cons_append, run_cons _ _ _ _ hna]
      refine ⟨?_, by simp [b2]⟩
      rw [List.getLast?_cons, b1]; rfl
  have h4' : slotsAfter (live (step true s' (.emit t)).1) mid ≠ [] := by
    rw [e2, a3]
    have : ∀ (a b : List Op) (l : List SlotId), slotsAfter l (a ++ b) = slotsAfter (slotsAfter l a) b := by
      intro a b; induction a with
      | nil => intro l; rfl
      | cons o os ih => intro l; simp [slotsAfter, ih]
    rw [this] at h4; exact h4
  obtain ⟨b1, b2⟩ := hmid mid h3 _ (by rw [e3, a3]; exact h2) h4'
  constructor
  · rw [List.getLast?_append, List.getLast?_cons, b1]; rfl
  · simp only [List.length_append, List.length_cons, b2, hlen]; omega

/-- Both builds: after an exception, once `signal.disconnect()` has cut all connections, emissions do nothing, and the counts are right. -/
theorem empty_goes_on (c : Bool) (pre mid : List Op) (t : Nat → Bool)
    (h1 : ∀ o ∈ idealRun [] pre, o.threw = false) (h2 : ∀ o ∈ mid, (∃ u, o = .emit u) ∨ o = .clear ∨ o = .count ∨ o = .connected) :
    run c start (pre ++ .emit t :: .clear :: mid) = idealRun [] (pre ++ .emit t :: .clear :: mid) := by
  obtain ⟨s', a1, a2, a3, a4⟩ := prefix_state c pre start clean_start rfl h1
  have happ : ∀ (a b : List Op) (l : List SlotId), idealRun l (a ++ b) = idealRun l a ++ idealRun (slotsAfter l a) b := by
    intro a b; induction a with
    | nil => intro l; rfl
    | cons o os ih => intro l; simp [idealRun, slotsAfter, ih]
  rw [a4, happ]
  obtain ⟨e1, e2, e3⟩ := step_exact c s' (.emit t) a1 a2
  have hna : (step c s' (.emit t)).2 ≠ .aborted := by rw [e1]; simp [ideal]
  rw [run_cons _ _ _ _ hna, e1, a3]
  have hl : live start = [] := rfl
  rw [hl]
  congr 1
  simp only [idealRun]
  congr 1
  rw [run_cons _ _ _ _ (by simp [step])]
  congr 1
  have : ∀ (os : List Op), (∀ o ∈ os, (∃ u, o = .emit u) ∨ o = .clear ∨ o = .count ∨ o = .connected) → ∀ s : State, s.slots = [] →
      run c s os = idealRun [] os := by
    intro os
    induction os with
    | nil => intro _ s _; rfl
    | cons o os ih =>
      intro hq s hs
      have hst : (step c s o).2 = (ideal [] o).2 ∧ (step c s o).1.slots = [] ∧ (ideal [] o).1 = [] := by
        rcases hq o (by simp) with ⟨u, rfl⟩ | rfl | rfl | rfl <;> simp [step, notify, hs, ideal]
      have hna : (step c s o).2 ≠ .aborted := by
        rw [hst.1]; cases o <;> simp [ideal]
      rw [run_cons _ _ _ _ hna, idealRun, hst.1, hst.2.2, ih (fun o' h' => hq o' (by simp [h'])) _ hst.2.1]
  exact this mid h2 _ rfl

example : run true start ([.connect 1] ++ .emit (fun _ => true) :: .clear :: [.emit (fun _ => true), .count])
    = [.bool true, .calls [1] true, .done, .calls [] false, .num 0] := rfl

/-- Witness of `ends_program`, and the refutation for this build: the second emission should call slot 1. -/
theorem emission_aborts :
    run true start [.connect 1, .emit (fun _ => true), .emit (fun _ => false)] = [.bool true, .calls [1] true, .aborted] ∧
    idealRun [] [.connect 1, .emit (fun _ => true), .emit (fun _ => false)] = [.bool true, .calls [1] true, .calls [1] false] :=
  ⟨rfl, rfl⟩

example : (∀ o ∈ idealRun [] [.connect 1], o.threw = false) ∧ (ideal (slotsAfter [] [.connect 1]) (.emit (fun _ => true))).2.threw = true ∧
    slotsAfter [] ([.connect 1] ++ .emit (fun _ => true) :: [.connect 2, .disconnect 1]) ≠ [] := ⟨by decide, rfl, by decide⟩

end Maf.Exn
