import Verif.Lemmas.Invocation
/-
C116: waiting for a signal.
-/
namespace Maf.Fut
variable {A : Type}

theorem inv {as : List (Act A)} {s : State A} (h : run (init A) as = some s) : Inv s := inv_run inv_init h

/-- Every event obeys the rules. -/
theorem rules (as : List (Act A)) (s : State A) (h : run (init A) as = some s) {l e m} (hl : s.log = l ++ e :: m) : EvOk l e := (inv h).hist.all l e m hl

/-- Once the slot is not open it never is again, nor fires. -/
theorem settled (as : List (Act A)) (s : State A) (h : run (init A) as = some s) {l r : List (Ev A)} (hl : s.log = l ++ r) (hn : fate l ≠ .never) (ho : fate l ≠ .open) :
    fate s.log = fate l ∧ ∀ e ∈ r, e ≠ .connected ∧ (∀ a, e ≠ .fired a) ∧ e ≠ .cancelled ∧ e ≠ .cleared := by
  have hh := (inv h).hist
  rw [hl] at hh ⊢
  have key : ∀ r : List (Ev A), Hist EvOk (l ++ r) → fate (l ++ r) = fate l ∧ ∀ e ∈ r, e ≠ .connected ∧ (∀ a, e ≠ .fired a) ∧ e ≠ .cancelled ∧ e ≠ .cleared := by
    refine snoc_induct ?_ ?_
    · intro _; simp
    · intro r e ih hr
      rw [← List.append_assoc] at hr
      obtain ⟨i1, i2⟩ := ih hr.left
      have he := hr.all (l ++ r) e [] (by simp)
      rw [← List.append_assoc, fate_snoc, i1]
      cases e <;> simp only [EvOk] at he <;> (try (rw [i1] at he)) <;> grind [fateStep]
  exact key r hh

/-- The slot fires in the first emission that ends after it has been connected (or in the one it is connected in), with that emission's argument, and never again. -/
theorem first_emission (as : List (Act A)) (s : State A) (h : run (init A) as = some s) {l m r : List (Ev A)} {a : A} (hl : s.log = l ++ .connected :: m ++ .fired a :: r) :
    Ev.ended ∉ m ∧ now (l ++ .connected :: m) = some a ∧ ∀ b, Ev.fired b ∉ l ++ .connected :: m ∧ Ev.fired b ∉ r := by
  have hf := rules as s h hl
  obtain ⟨hf1, hf2⟩ := hf
  have hset := settled as s h (l := l ++ .connected :: m ++ [.fired a]) (r := r) (by rw [hl]; simp) (by rw [fate_snoc]; simp [fateStep]) (by rw [fate_snoc]; simp [fateStep])
  have hopen : ∀ l1 e r1, l ++ .connected :: m = l1 ++ e :: r1 → fate (l1 ++ [e]) = .never ∨ fate (l1 ++ [e]) = .open := by
    intro l1 e r1 he
    apply Classical.byContradiction
    intro hc
    have := settled as s h (l := l1 ++ [e]) (r := r1 ++ .fired a :: r) (by rw [hl, he]; simp) (fun h => hc (.inl h)) (fun h => hc (.inr h))
    exact (this.2 (.fired a) (by simp)).2.1 a rfl
  refine ⟨?_, hf2, fun b => ⟨?_, fun hb => (hset.2 _ hb).2.1 b rfl⟩⟩
  · intro hm
    obtain ⟨m1, m2, rfl⟩ := List.append_of_mem hm
    have h1 := rules as s h (l := l ++ .connected :: m1) (e := .ended) (m := m2 ++ .fired a :: r) (by rw [hl]; simp)
    rcases hopen (l ++ .connected :: m1) .ended m2 (by simp) with h2 | h2
    · rw [fate_snoc] at h2
      have key : ∀ x : List (Ev A), fate (l ++ .connected :: x) ≠ .never := by
        refine snoc_induct ?_ ?_
        · simp [fateStep]
        · intro x e ih
          rw [show l ++ Ev.connected :: (x ++ [e]) = (l ++ .connected :: x) ++ [e] by simp, fate_snoc]
          cases e <;> simp [fateStep, ih]
      exact key m1 h2
    · rw [fate_snoc] at h2; exact h1.1 h2
  · intro hb
    obtain ⟨l1, r1, he⟩ := List.append_of_mem hb
    rcases hopen l1 (.fired b) r1 he with h2 | h2 <;> simp [fateStep] at h2

/-- No emission is missed: when one ends after the slot has been connected, the slot has fired, or has been cancelled or dropped by the signal. -/
theorem no_emission_missed (as : List (Act A)) (s : State A) (h : run (init A) as = some s) {l m r : List (Ev A)} (hl : s.log = l ++ .connected :: m ++ .ended :: r) :
    (∃ a, Ev.fired a ∈ m) ∨ Ev.cancelled ∈ m ∨ Ev.cleared ∈ m := by
  have h1 := rules as s h hl
  apply Classical.byContradiction
  intro hc
  refine h1.1 ?_
  have key : ∀ x : List (Ev A), (¬ ∃ a, Ev.fired a ∈ x) → Ev.cancelled ∉ x → Ev.cleared ∉ x → fate (l ++ .connected :: x) = .open := by
    refine snoc_induct ?_ ?_
    · simp [fateStep]
    · intro x e ih h1 h2 h3
      rw [show l ++ Ev.connected :: (x ++ [e]) = (l ++ .connected :: x) ++ [e] by simp, fate_snoc, ih (by grind) (by grind) (by grind)]
      cases e <;> simp [fateStep] <;> grind
  exact key m (fun hx => hc (.inl hx)) (fun hx => hc (.inr (.inl hx))) (fun hx => hc (.inr (.inr hx)))

/-- `fate` tells what happened. -/
theorem fate_mem (l : List (Ev A)) : (∀ a, fate l = .fired a → Ev.fired a ∈ l) ∧ (fate l = .cancelled → Ev.cancelled ∈ l) ∧ (fate l = .cleared → Ev.cleared ∈ l) := by
  refine snoc_induct (motive := fun l => (∀ a, fate l = .fired a → Ev.fired a ∈ l) ∧ (fate l = .cancelled → Ev.cancelled ∈ l) ∧ (fate l = .cleared → Ev.cleared ∈ l)) ?_ ?_ l
  · simp [fate]
  · intro l e ih
    simp only [fate_snoc, List.mem_append, List.mem_singleton]
    cases e <;> simp only [fateStep] <;> grind

/-- `wait` returns true after having called the function once, with the argument of the emission in which the slot fired; it does so at most once. -/
theorem wait_true_partial (as : List (Act A)) (s : State A) (h : run (init A) as = some s) {l r : List (Ev A)} {a : A} (hl : s.log = l ++ .returned a :: r) :
    Ev.fired a ∈ l ∧ (∀ b, Ev.returned b ∉ l ∧ Ev.returned b ∉ r) ∧ Ev.failed ∉ l ∧ Ev.failed ∉ r := by
  obtain ⟨h1, -, h3⟩ := rules as s h hl
  have hr : ∀ e ∈ r, (∃ b, e = Ev.returned b) ∨ e = .failed → False := by
    intro e he hc
    obtain ⟨r1, r2, rfl⟩ := List.append_of_mem he
    have h4 := rules as s h (l := l ++ .returned a :: r1) (e := e) (m := r2) (by rw [hl]; simp)
    rcases hc with ⟨b, rfl⟩ | rfl
    · exact h4.2.2 (.inl ⟨a, by simp⟩)
    · exact h4.2.2 (.inl ⟨a, by simp⟩)
  exact ⟨(fate_mem l).1 a h1, fun b => ⟨fun hb => h3 (.inl ⟨b, hb⟩), fun hb => hr _ hb (.inl ⟨b, rfl⟩)⟩, fun hb => h3 (.inr hb), fun hb => hr _ hb (.inr rfl)⟩

/-- `wait` without a time limit, called on a future that has not been used, returns false only if the signal has dropped the slot, and then the slot never fires. -/
theorem wait_false (as : List (Act A)) (s : State A) (h : run (init A) as = some s) {l r : List (Ev A)} (hl : s.log = l ++ .failed :: r) : Ev.cleared ∈ l ∧ ∀ a, Ev.fired a ∉ s.log := by
  obtain ⟨h1, -, h3⟩ := rules as s h hl
  refine ⟨(fate_mem l).2.2 h1, fun a hf => ?_⟩
  obtain ⟨l1, r1, he⟩ := List.append_of_mem hf
  have h4 := settled as s h (l := l1 ++ [.fired a]) (r := r1) (by rw [he]; simp) (by simp [fateStep]) (by simp [fateStep])
  have h5 := settled as s h (l := l) (r := .failed :: r) hl (by rw [h1]; simp) (by rw [h1]; simp)
  rw [h5.1, h1, fate_snoc] at h4
  simp [fateStep] at h4

/-- The result of `waitableConnect` is valid only if the slot is connected; invalid only if it has fired already or the signal has dropped it. -/
theorem valid_truthful (as : List (Act A)) (s : State A) (h : run (init A) as = some s) {l r : List (Ev A)} {e : Ev A} (hl : s.log = l ++ e :: r) :
    (e = .valid → fate l = .open) ∧ (e = .invalid → (∃ a, Ev.fired a ∈ l) ∨ Ev.cleared ∈ l) := by
  have h1 := rules as s h hl
  refine ⟨fun he => by subst he; exact h1.1, fun he => ?_⟩
  subst he
  rcases h1 with ⟨a, ha⟩ | hc
  · exact .inl ⟨a, (fate_mem l).1 a ha⟩
  · exact .inr ((fate_mem l).2.2 hc)

/-- A waiting thread can go on once the slot has set the value, or has been dropped and nobody uses the connection. -/
theorem wait_returns (as : List (Act A)) (s : State A) (h : run (init A) as = some s) (hw : s.waiting ≠ none) :
    (∀ a, fate s.log = .fired a → (∀ e, s.em = some e → e.phase = .walk) → ∃ s', step s .wake = some s' ∧ s'.log = s.log ++ [.returned a] ∧ s'.waiting = none) ∧
      (fate s.log = .cleared → s.op = none → ∃ s', step s .wake = some s' ∧ s'.log = s.log ++ [.failed] ∧ s'.waiting = none) := by
  have hi := inv h
  refine ⟨fun a ha he => ?_, fun hc ho => ?_⟩
  · have hcell : s.cell = .value a := by
      rcases hi.fired a ha with h1 | h1
      · exact h1
      · obtain ⟨e, h2, h3⟩ := hi.firing.1 h1
        exact absurd (he e h2) h3
    exact ⟨{ s with waiting := none, fut := false, log := s.log ++ [.returned a] }, by simp only [step]; rw [if_neg hw, hcell], rfl, rfl⟩
  · have hcell : s.cell = .broken := by
      rcases (hi.cleared hc).2 with h1 | h1
      · exact h1
      · exact absurd ho (hi.held h1)
    exact ⟨{ s with waiting := none, fut := false, log := s.log ++ [.failed] }, by simp only [step]; rw [if_neg hw, hcell], rfl, rfl⟩

/-- Not always: a slot that fires destroys itself while it runs, unless an operation of the connection happens to hold it. -/
theorem firing_undefined (s : State A) (t : Thread) (a : A) (he : s.em = some ⟨t, a, .set⟩) (as : List (Act A)) (h : run (init A) as = some s) (ho : s.op = none) :
    ∃ s', step s .finish = some s' ∧ s'.ub = true := by
  have hh : s.held = false := by
    cases e : s.held with
    | false => rfl
    | true => exact absurd ho ((inv h).held e)
  exact ⟨_, by simp only [step]; rw [he], by simp [hh]⟩

/-- ... as in the project's own test: connect, emit, wait. -/
example : (run (init Nat) [.connect 0, .check, .endOp, .emit 0 5, .reach, .setValue, .finish, .endEmission, .wait 0 false, .wake]).map (fun s => (s.ub, s.log)) =
    some (true, [.connected, .valid, .emitted 5, .fired 5, .ended, .returned 5]) := by decide +kernel

/-- The thread that waits may be the one that saves the slot: it gets the value, destroys the future and holds the slot until the emission ends. -/
example : (run (init Nat) [.connect 0, .check, .endOp, .wait 0 false, .emit 1 5, .reach, .setValue, .wake, .destroy 0, .finish, .endEmission, .endOp]).map (fun s => (s.ub, s.log, s.place)) =
    some (false, [.connected, .valid, .emitted 5, .fired 5, .returned 5, .ended], .gone) := by decide +kernel

/-- A slot dropped by the signal: `wait` returns false. -/
example : (run (init Nat) [.connect 0, .check, .endOp, .wait 0 false, .destroySignal 1, .wake, .wait 0 true]).map (fun s => (s.ub, s.log)) =
    some (false, [.connected, .valid, .cleared, .failed, .refused]) := by decide +kernel

/-- Not always: an emission by another thread just after connecting is received by nobody. -/
theorem invocation_lost : (run (init Nat) [.connect 0, .emit 1 5, .reach, .setValue, .check, .finish, .endEmission, .endOp]).map (fun s => (s.ub, s.log, s.client)) =
    some (false, [.connected, .emitted 5, .fired 5, .ended, .invalid], .over) := by decide +kernel

/-- Not always: after `cancel`, `wait` does not return, whatever happens. -/
theorem cancelled_wait_forever (as : List (Act A)) (s : State A) (h : run (init A) as = some s) (t : Thread) (hw : s.waiting = some (t, false)) (hc : fate s.log = .cancelled)
    (as' : List (Act A)) (s' : State A) (hr : run s as' = some s') : s'.waiting = some (t, false) := by
  have hcc := inv h
  clear h
  induction as' generalizing s with
  | nil => cases hr; exact hw
  | cons a as' ih =>
    simp only [run, Option.bind_eq_some_iff] at hr
    obtain ⟨s1, h1, h2⟩ := hr
    have hi1 := inv_step hcc h1
    refine ih s1 ?_ ?_ h2 hi1
    · have h8 := hcc.value
      have h9 := hcc.broken
      cases a <;> simp only [step] at h1 <;> grind [ending_waiting, dropSlot]
    · have h3 := hcc.inSignal
      have h4 := hcc.nowhere
      have h5 := hcc.client_none
      cases a with
      | endOp =>
        simp only [step] at h1
        split at h1
        · next t' o' _ =>
          split at h1
          · cases h1
            rcases ending_log s o' with h | h | h | h <;> grind [fate_snoc, fateStep]
          · cases h1
        · cases h1
      | _ => simp only [step] at h1 <;> grind [dropSlot, fate_snoc, fateStep]

/-- Its hypotheses hold. -/
example : (run (init Nat) [.connect 0, .check, .endOp, .cancel 0, .endOp, .wait 0 false]).map (fun s => (s.waiting, fate s.log)) = some (some (0, false), .cancelled) := by decide +kernel
example : (run (init Nat) [.connect 0, .check, .endOp, .wait 0 false, .cancel 1, .endOp]).map (fun s => (s.waiting, fate s.log)) = some (some (0, false), .cancelled) := by decide +kernel

/-- Not always: a thread that waits during its own emission, before that has got to the slot, waits for ever, and so does whoever wants to use the signal. -/
theorem wait_in_emission_forever (as : List (Act A)) (s : State A) (h : run (init A) as = some s) (t : Thread) (a : A) (hw : s.waiting = some (t, false)) (he : s.em = some ⟨t, a, .walk⟩) (hp : s.place = .inSignal)
    (as' : List (Act A)) (s' : State A) (hr : run s as' = some s') : s'.waiting = some (t, false) ∧ s'.em = some ⟨t, a, .walk⟩ := by
  have hcc := inv h
  have hap : Apart s := apart_run inv_init (fun t l o h _ => by cases h) h
  clear h
  induction as' generalizing s with
  | nil => cases hr; exact ⟨hw, he⟩
  | cons x as' ih =>
    simp only [run, Option.bind_eq_some_iff] at hr
    obtain ⟨s1, h1, h2⟩ := hr
    have hi1 := inv_step hcc h1
    have key : s1.waiting = some (t, false) ∧ s1.em = some ⟨t, a, .walk⟩ ∧ s1.place = .inSignal := by
      have hb : busy s t = true := by simp [busy, hw]
      have h8 := hcc.value
      have h9 := hcc.broken
      have h3 := hcc.inSignal
      have h5 := hcc.client_none
      have h6 := hcc.op_check
      have h7 := (hcc.waiting (by rw [hw]; simp)).1
      cases x with
      | endOp =>
        simp only [step] at h1
        split at h1
        · next t' o' ho =>
          split at h1
          · next hl =>
            have hne : t' ≠ t := fun e => hap t false o' hw (by rw [ho, e])
            rcases hl with hl | hl
            · have ha : s.alive = true := by
                cases e : s.alive with
                | true => rfl
                | false => exact absurd hp (hcc.dead e).1
              rw [ha, Bool.and_true] at hl
              exact absurd hp (hcc.unheld (by rw [ho]; simp) hl)
            · simp only [canLock, he, Option.all_some, beq_iff_eq] at hl
              exact absurd hl.symm hne
          · cases h1
        · cases h1
      | _ => simp only [step] at h1 <;> grind [dropSlot]
    exact ih s1 key.1 key.2.1 key.2.2 h2 hi1 (apart_step hcc hap h1)

example : (run (init Nat) [.connect 0, .check, .endOp, .emit 0 5, .wait 0 false]).map (fun s => (s.waiting, s.em, s.place)) = some (some (0, false), some ⟨0, 5, .walk⟩, .inSignal) := by decide +kernel

end Maf.Fut
