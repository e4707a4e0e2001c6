import Verif.Lemmas.ReleaseLock
/-
C120: what a queued function owns is released once; what its destructors may do.
-/
namespace Maf.Drop

/-- Every event of every execution keeps the rules of `Spec/Release.lean`: a function is called at most once, after it was queued and
never after it was destroyed; it is destroyed at most once, and never while it runs. -/
theorem events_ok {as : List Act} {s : State} (h : run init as = some s) {l m : List Ev} {e : Ev} (he : s.log = l ++ e :: m) : EvOk l e :=
  (run_inv h).hist.all l e m he

/-- No function is leaked: once no thread is in a call of the processor, every function that was handed over is destroyed or
in the queue. -/
theorem none_leaked {as : List Act} {s : State} (h : run init as = some s) (hq : ∀ t, s.stk t = []) {t : Tid} {x : Item} (hm : .made t x ∈ s.log) :
    (∃ u, .dropped u x ∈ s.log) ∨ x ∈ s.q := by
  rcases (run_inv h).all x ⟨t, hm⟩ with h1 | h1 | ⟨u, hu⟩
  · exact .inl h1
  · exact .inr h1
  · simp [hq u] at hu

/-- What is in the queue has not been called, and not been destroyed. -/
theorem queued_is_whole {as : List Act} {s : State} (h : run init as = some s) {x : Item} (hx : x ∈ s.q) :
    (∀ t, Ev.began t x ∉ s.log) ∧ ∀ t, Ev.dropped t x ∉ s.log := ⟨((run_inv h).qlive x hx).2.2, ((run_inv h).qlive x hx).1.2⟩

/-- What a function owns stays alive after the function has returned, as long as its thread waits for the next one. -/
theorem kept_while_waiting {as : List Act} {s : State} (h : run init as = some s) {t : Tid} {k : Loop} {x : Item} {rest : List Frame}
    (hs : s.stk t = .loop k (some x) :: rest) : ∀ u, Ev.dropped u x ∉ s.log :=
  ((run_inv h).flive t x (by simp [hs, Frame.items])).2

/-- Somebody who waits for what was captured to be destroyed may wait for ever: one function, executed to its end; the processor runs and has
nothing to do; and the function is not destroyed. -/
theorem kept_while_idle : ∃ as s, run init as = some s ∧ s.log = [.made 0 0, .entered 0, .enters 1, .began 1 0, .done 1 0] ∧ WaitsForWork s 1 ∧ step s (.step 1) = none :=
  ⟨[.call 0 .async, .step 0, .step 0, .call 1 (.run .forever), .step 1, .step 1, .step 1, .step 1], _, rfl, rfl, ⟨⟨_, _, _, rfl⟩, rfl, rfl, rfl⟩, rfl⟩

/-- The two ways into it. A destructor of what an executed function owns calls `executeAsync` on the processor that runs: -/
theorem drop_deadlock : ∃ as s, run init as = some s ∧ Stuck s 1 ∧ s.q = [] ∧ s.log =
    [.made 0 0, .entered 0, .made 0 1, .entered 1, .enters 1, .began 1 0, .done 1 0, .dropped 1 0, .made 1 2] :=
  ⟨[.call 0 .async, .step 0, .step 0, .call 0 .async, .step 0, .step 0, .call 1 (.run .forever), .step 1, .step 1, .step 1, .step 1, .step 1,
    .call 1 .async, .step 1], _, rfl, ⟨rfl, _, _, rfl, rfl⟩, rfl, rfl⟩

/-- and a destructor of what a function owns that is destroyed by `stop` asks for the number of pending functions. -/
theorem stop_deadlock : ∃ as s, run init as = some s ∧ Stuck s 0 ∧ s.closed = true ∧ s.log = [.made 0 0, .entered 0, .dropped 0 0] :=
  ⟨[.call 0 .async, .step 0, .step 0, .call 0 .stop, .step 0, .step 0, .call 0 .size], _, rfl, ⟨rfl, _, _, rfl, rfl⟩, rfl, rfl⟩

/-- It is for good, and for everybody: in every continuation the thread stays where it is, nothing gets into the queue, and
no function is called on any thread. -/
theorem stuck_forever {as bs : List Act} {s s' : State} {t : Tid} (h : run init as = some s) (hk : Stuck s t) (hr : run s bs = some s') :
    Stuck s' t ∧ (∀ a ∈ bs, a.tid ≠ t) ∧ s'.q = s.q ∧ (∀ u x, Ev.began u x ∈ s'.log → Ev.began u x ∈ s.log) ∧
    ∀ x, Ev.entered x ∈ s'.log → Ev.entered x ∈ s.log := by
  have hl := run_linv h
  clear h
  induction bs generalizing s with
  | nil => cases hr; exact ⟨hk, by simp, rfl, fun _ _ h => h, fun _ h => h⟩
  | cons b bs ih =>
    simp only [run, Option.bind_eq_some_iff] at hr
    obtain ⟨s1, h1, h2⟩ := hr
    have a1 := stuck_step hl hk h1
    have a2 := ih a1.1 h2 (step_linv hl h1)
    refine ⟨a2.1, ?_, a2.2.2.1.trans a1.2.2.1, fun u x h => a1.2.2.2.1 u x (a2.2.2.2.1 u x h), fun x h => a1.2.2.2.2 x (a2.2.2.2.2 x h)⟩
    intro a ha
    rcases List.mem_cons.1 ha with rfl | ha
    · exact a1.2.1
    · exact a2.2.1 a ha

/-- It takes a destructor: a thread that waits for the mutex it has locked is in a destructor of something it has destroyed. -/
theorem stuck_in_destructor {as : List Act} {s : State} {t : Tid} (h : run init as = some s) (hk : Stuck s t) :
    ∃ x, Frame.dtor x ∈ s.stk t ∧ Ev.dropped t x ∈ s.log := by
  have h2 : ∀ as s, run init as = some s → ∀ u x, Frame.dtor x ∈ s.stk u → Ev.dropped u x ∈ s.log := fun as s h => run_dtor h
  have hw := (run_inv h).wf t
  obtain ⟨hl, f, rest, hs, hf⟩ := hk
  obtain ⟨g, hg, hh⟩ : ∃ g ∈ s.stk t, g.holds = true := by
    have := run_linv h t
    rw [if_pos hl] at this
    exact List.countP_pos_iff.1 (by simp only [holders] at this; omega)
  rw [hs] at hg hw
  have hg' : g ∈ rest := by
    rcases List.mem_cons.1 hg with rfl | hg
    · cases g <;> simp_all [Frame.wants, Frame.holds]
    · exact hg
  obtain ⟨x, hx⟩ := dtor_above hw.2 hg' hh (fun g r e => by
    have := hw.1
    left
    cases f <;> simp_all [Below, Frame.wants])
  exact ⟨x, by simp [hs, hx], h2 as s h t x (by simp [hs, hx])⟩

/-- The full claim, "destructors of what functions own may use the processor like any other code", fails as shown above. What is left: if no destructor
that runs with the mutex locked makes a call that locks it, then every thread in the processor's code can go on, or waits for work, or waits for a
mutex whose owner can go on; -/
theorem progress_partial {s : State} (h : PoliteRun s) {t : Tid} (hs : s.stk t ≠ []) :
    (∃ s', step s (.step t) = some s') ∨ WaitsForWork s t ∨ ∃ u s', s.lock = some u ∧ u ≠ t ∧ step s (.step u) = some s' := by
  obtain ⟨_, hl, hp⟩ := polite_inv h
  cases hk : s.lock with
  | some u =>
    obtain ⟨s', h'⟩ := owner_steps hp hk
    by_cases hu : u = t
    · subst hu; exact .inl ⟨s', h'⟩
    · exact .inr (.inr ⟨u, s', rfl, hu, h'⟩)
  | none =>
    match hst : s.stk t with
    | [] => exact absurd hst hs
    | .code _ :: _ => exact .inl ⟨_, by simp only [step, hst, stepFrame]; rfl⟩
    | .dtor _ :: _ => exact .inl ⟨_, by simp only [step, hst, stepFrame]; rfl⟩
    | .swap _ _ :: _ => exact .inl ⟨_, by simp only [step, hst, stepFrame]; rfl⟩
    | .after _ _ :: _ => exact .inl ⟨_, by simp only [step, hst, stepFrame]; rfl⟩
    | .ending none :: _ => exact .inl ⟨_, by simp only [step, hst, stepFrame]; rfl⟩
    | .ending (some _) :: _ => exact .inl ⟨_, by simp only [step, hst, stepFrame]; rfl⟩
    | .push2 _ :: _ => exact .inl ⟨_, by simp only [step, hst, stepFrame, hk]; rfl⟩
    | .size :: _ => exact .inl ⟨_, by simp only [step, hst, stepFrame, hk]; rfl⟩
    | .clear :: _ => exact .inl ⟨_, by simp only [step, hst, stepFrame, hk]; rfl⟩
    | .clearing [] :: _ => exact .inl ⟨_, by simp only [step, hst, stepFrame]; rfl⟩
    | .clearing (_ :: _) :: _ => exact .inl ⟨_, by simp only [step, hst, stepFrame]; rfl⟩
    | .push1 _ :: _ =>
      cases hc : s.closed
      · exact .inl ⟨_, by simp [step, hst, stepFrame, hc]; rfl⟩
      · exact .inl ⟨_, by simp [step, hst, stepFrame, hc]; rfl⟩
    | .loop k p :: rest =>
      cases hc : s.closed
      · cases hq : s.q with
        | nil => exact .inr (.inl ⟨⟨k, p, rest, hst⟩, hk, hc, hq⟩)
        | cons x q =>
          cases p
          · exact .inl ⟨_, by simp [step, hst, stepFrame, hk, hc, hq]; rfl⟩
          · exact .inl ⟨_, by simp [step, hst, stepFrame, hk, hc, hq]; rfl⟩
      · exact .inl ⟨_, by simp [step, hst, stepFrame, hk, hc]; rfl⟩

/-- and the owner of the mutex unlocks it after finitely many steps of its own. -/
theorem lock_released_partial {s : State} (h : PoliteRun s) {t : Tid} (hk : s.lock = some t) :
    ∃ n s', run s (List.replicate n (.step t)) = some s' ∧ s'.lock = none := by
  obtain ⟨_, hl, hp⟩ := polite_inv h
  obtain ⟨ds, f, rest, hs, hf⟩ := hp t hk
  exact unlocks ds hk hs hf

/-- No thread is stuck in such an execution. -/
theorem polite_not_stuck_partial {s : State} (h : PoliteRun s) (t : Tid) : ¬ Stuck s t := by
  rintro ⟨hk, f, rest, hs, hf⟩
  obtain ⟨s', h'⟩ := owner_steps (polite_inv h).2.2 hk
  simp only [step, hs] at h'
  cases f <;> simp_all [Frame.wants, stepFrame]

/-! The hypotheses can be met. -/

/-- An execution with a destructor that runs with the mutex locked, and is polite. -/
def demo : List Act :=
  [.call 0 .async, .step 0, .step 0, .call 0 .async, .step 0, .step 0, .call 1 (.run .forever), .step 1, .step 1, .step 1, .step 1, .step 1]

example : ∃ s, run init demo = some s ∧ s.lock = some 1 ∧ s.stk 1 = [.dtor 0, .swap .forever 1] := ⟨_, rfl, rfl, rfl⟩

example : ∃ s, PoliteRun s ∧ s.lock = some 1 ∧ s.stk 1 = [.dtor 0, .swap .forever 1] := by
  have h0 := PoliteRun.step (a := .call 0 .async) .init (by intro h; cases h) rfl
  have h1 := PoliteRun.step (a := .step 0) h0 trivial rfl
  have h2 := PoliteRun.step (a := .step 0) h1 trivial rfl
  have h3 := PoliteRun.step (a := .call 0 .async) h2 (by intro h; cases h) rfl
  have h4 := PoliteRun.step (a := .step 0) h3 trivial rfl
  have h5 := PoliteRun.step (a := .step 0) h4 trivial rfl
  have h6 := PoliteRun.step (a := .call 1 (.run .forever)) h5 (by intro h; cases h) rfl
  have h7 := PoliteRun.step (a := .step 1) h6 trivial rfl
  have h8 := PoliteRun.step (a := .step 1) h7 trivial rfl
  have h9 := PoliteRun.step (a := .step 1) h8 trivial rfl
  have h10 := PoliteRun.step (a := .step 1) h9 trivial rfl
  have h11 := PoliteRun.step (a := .step 1) h10 trivial rfl
  exact ⟨_, h11, rfl, rfl⟩

/-- Everything is released in the end: stopped, and the loop left. -/
example : ∃ s, run init (demo ++ [.step 1, .step 1, .step 1, .call 0 .stop, .step 0, .step 0, .step 1, .step 1, .step 1, .step 1, .step 1]) = some s ∧
    (∀ t, t < 2 → s.stk t = []) ∧ s.q = [] ∧ .dropped 1 0 ∈ s.log ∧ .dropped 1 1 ∈ s.log :=
  ⟨_, rfl, by decide +kernel, rfl, by decide +kernel, by decide +kernel⟩

end Maf.Drop
