import Verif.Lemmas.ReceiverProgress
/-
C75: what is sent to a listening receiver arrives, once, and in order.
C76: stopping a receiver.

The vocabulary (`Before`, `Done`, `Open`) is about logs only, see the head of Lemmas/Receiver. `gos`, `stopSteps` count
the steps of the listening thread and of a call of stop.
-/
namespace Maf.Listen

/-- The log of some run. -/
def Log (l : List Ev) : Prop := ∃ as s, run init as = some s ∧ s.log = l

theorem Log.hist {l : List Ev} (h : Log l) : Hist EvOk l := by obtain ⟨as, s, hr, rfl⟩ := h; exact (reach_init hr).1.hist

/-! ### C75 -/

/-- What the callback is given was sent, on a connection of which nothing was given before. -/
theorem delivered_once {l r : List Ev} {c : Nat} {m : Msg} (h : Log (l ++ .delivered c m :: r)) : .wrote c m ∈ l ∧ ∀ m', .delivered c m' ∉ l := by
  obtain ⟨-, h1, h2, -⟩ := h.hist.all l _ r rfl
  exact ⟨h1, fun m' hc => h2.2 (.inl ⟨m', hc⟩)⟩

/-- A message that was sent before another peer (or the same one again) connected is given to the callback before the
other's, unless its connection found no slot. -/
theorem in_order {l r : List Ev} {c d : Nat} {m m' : Msg} (h : Log (l ++ .delivered c m :: r)) (hb : Before (.wrote d m') (.connected c) (l ++ .delivered c m :: r)) :
    .delivered d m' ∈ l ∨ .leaked d ∈ l := by
  have hh := h.hist
  obtain ⟨h0, h1, h2, h3, h4⟩ := hh.all l _ r rfl
  refine h4 d m' ?_
  -- `c` was connected before it was accepted, so in `l`
  have hcon : .connected c ∈ l := by
    obtain ⟨a, b, rfl⟩ := List.append_of_mem h2.1
    have := (hh.all a (.accepted c) (b ++ .delivered c m :: r) (by simp)).2.1
    simp [this]
  obtain ⟨a, b, x, e⟩ := hb
  rcases places (l1 := l) (l2 := a ++ .wrote d m' :: b) (x := .delivered c m) (y := .connected c) (r1 := r) (r2 := x) (by rw [e]; simp) with ⟨-, h5, -⟩ | ⟨y, h5, h6⟩ | ⟨y, h5, h6⟩
  · cases h5
  · have h7 := hh.all (a ++ .wrote d m' :: b) (.connected c) x (by rw [e]; simp) c (by rw [h5]; simp [hcon])
    exact absurd h7 (Nat.lt_irrefl _)
  · exact ⟨a, b, y, by rw [h5]; simp⟩

/-- A connection finds no slot only if 30 others that have not been read are open. -/
theorem leaks_only_full {l r : List Ev} {c : Nat} (h : Log (l ++ .leaked c :: r)) : ∃ cs : List Nat, cs.Nodup ∧ cs.length = 30 ∧ ∀ d ∈ cs, Open l d :=
  (h.hist.all l _ r rfl).2.2.2

/-- A connection is closed without a callback only if its peer hung up without having sent a message. -/
theorem closed_only {l r : List Ev} {c : Nat} (h : Log (l ++ .closed c :: r)) : .hungUp c ∈ l := (h.hist.all l _ r rfl).2.1

/-- A message that was sent is given to the callback after at most 300 steps of the listening thread, unless its
connection finds no slot, the receiver is stopped, or `accept` fails. -/
theorem arrives_partial {as bs : List Act} {s s' : State} {c : Nat} {m : Msg} (h : run init as = some s) (hw : .wrote c m ∈ s.log) (hs : .started ∈ s.log)
    (h' : run s bs = some s') (hstop : ∀ n, .stopCalled n ∉ s'.log) (hacc : .acceptFails ∉ bs) (hn : 300 ≤ gos bs) : .delivered c m ∈ s'.log ∨ .leaked c ∈ s'.log := by
  have hi := reach_init h
  have hi' := reach hi h'
  have hd : s.data c = .msg m := (hi.1.c.dat c m).2 hw
  have hc : c < s.conns := Nat.lt_of_not_le fun hc => by rw [hi.1.c.new c hc] at hd; cases hd
  have hg := arrives_run hi (hi.1.t.starting.2 hs) (by rw [hd]; simp) (due_all hi.1 hi.2 hc) h' hstop hacc hn
  exact gone_wrote hi'.1 hg (mem_run h' hw)

/-- And the listening thread can always make a step, until it ends. -/
theorem goes_on {as : List Act} {s : State} (h : run init as = some s) (hs : .started ∈ s.log) (he : .ended ∉ s.log) : ∃ s', step s .go = some s' := by
  have hi := (reach_init h).1.t
  have h1 := hi.starting.2 hs
  have h2 : s.pc ≠ .ended := fun hc => he (hi.ending.1 hc)
  simp only [step, stepLoop]
  cases hp : s.pc with
  | off => exact absurd hp h1
  | ended => exact absurd hp h2
  | check => simp only; split <;> exact ⟨_, rfl⟩
  | begin => exact ⟨_, rfl⟩
  | top => simp only; split; · exact ⟨_, rfl⟩
           split <;> exact ⟨_, rfl⟩
  | select => exact ⟨_, rfl⟩
  | woke r b => simp only; split; · exact ⟨_, rfl⟩
                split <;> exact ⟨_, rfl⟩
  | accept r b => simp only; split <;> exact ⟨_, rfl⟩
  | slot i r => simp only; split <;> exact ⟨_, rfl⟩

/-! ### C76 -/

/-- A receiver that is running when `stop` is called stops: after four steps of the call, the listening thread makes
fewer than 33 further steps before it ends (and `goes_on`: it can always make one), whatever peers and other callers
do. -/
theorem stop_ends_partial {as bs cs : List Act} {s s1 s2 s3 : State} {b : Bool} (h : run init as = some s) (hr : isRunning s.st = true) (hs : step s (.stop b) = some s1)
    (h1 : run s1 bs = some s2) (hb : 4 ≤ stopSteps s.stops bs) (h2 : run s2 cs = some s3) (he : .ended ∉ s3.log) : gos cs < 33 := by
  refine Nat.lt_of_not_le fun hc => he ?_
  have hi := reach_init h
  have hi1 : Inv s1 ∧ SInv s1 := ⟨inv_step hi.1 hs, sinv_step hi.1.t hi.2 hs⟩
  have hni : s.st ≠ .initialized := fun hc => by rw [hc] at hr; cases hr
  have hp : s1.st = s.st ∧ s1.spc s.stops = if b then .ask else .running := by cases hs; simp [setStop, upd]
  have hh : Hearing s1 s.stops 4 := by
    refine ⟨by rw [hp.1]; exact hni, .inr ?_⟩
    rw [hp.2]; cases b <;> simp [toStore]
  have hst := heard_run hi1 hh (by rw [hp.2]; cases b <;> simp) h1 hb
  have hi2 := reach hi1 h1
  have hi3 := reach hi2 h2
  exact hi3.1.t.ending.1 (ends_run hi2 ⟨hst, .inr (toEnd_le _)⟩ h2 hc)

/-- A call of `stop` that can not go on has returned, or waits for the listening thread to end, or for room in the
queue of connections. -/
theorem stop_waits_for {as : List Act} {s : State} {n : Nat} (h : run init as = some s) (hn : .stopCalled n ∈ s.log) (hb : step s (.goStop n) = none) :
    .stopReturned n ∈ s.log ∨ (.started ∈ s.log ∧ .ended ∉ s.log) ∨ s.backlog.length = 6 := by
  have hi := reach_init h
  have hc := (hi.1.t.call n).2 hn
  simp only [step, stepStop] at hb
  cases hp : s.spc n with
  | none => exact absurd hp hc
  | done => exact .inl (hi.2.isDone n hp)
  | ask => rw [hp] at hb; simp only at hb; split at hb <;> cases hb
  | running => rw [hp] at hb; simp only at hb; split at hb <;> cases hb
  | load => rw [hp] at hb; cases hb
  | store c => rw [hp] at hb; cases hb
  | wake =>
    rw [hp] at hb; simp only at hb; split at hb
    · rename_i hf
      have := hi.2.room
      exact .inr (.inr (Nat.le_antisymm this (of_decide_eq_true hf)))
    · cases hb
  | join =>
    rw [hp] at hb; simp only at hb; split at hb
    · cases hb
    · rename_i hno
      exact .inr (.inl ⟨hi.1.t.starting.1 fun hc => hno (.inl hc), fun hc => hno (.inr (hi.1.t.ending.2 hc))⟩)

/-- When `stop` has returned, the callback is not called any more. -/
theorem stop_silences {l r : List Ev} {n c : Nat} {m : Msg} (h : Log (l ++ .stopReturned n :: r)) (hs : .started ∈ l) : .delivered c m ∉ r := by
  intro hd
  have hh := h.hist
  have h1 := (hh.all l _ r rfl).2.2 hs
  obtain ⟨a, b, rfl⟩ := List.append_of_mem hd
  exact (hh.all (l ++ .stopReturned n :: a) (.delivered c m) b (by simp)).1 (by simp [h1])

/-- The thread ends only if it was stopped, or `accept` failed. -/
theorem ends_only {as : List Act} {s : State} (h : run init as = some s) (he : .ended ∈ s.log) : (∃ n, .stopCalled n ∈ s.log) ∨ .acceptFails ∈ as := by
  suffices ∀ (as : List Act) (s s' : State), Inv s ∧ SInv s → run s as = some s' → .ended ∉ s.log → .ended ∈ s'.log → (∃ n, .stopCalled n ∈ s'.log) ∨ .acceptFails ∈ as from
    this as init s ⟨inv_init, sinv_init⟩ h (by simp [init]) he
  intro as
  induction as with
  | nil => intro s s' _ hr hn he; cases hr; exact absurd he hn
  | cons a as ih =>
    intro s s' hi hr hn he
    simp only [run] at hr
    cases hs : step s a with
    | none => rw [hs] at hr; cases hr
    | some s1 =>
      rw [hs] at hr
      have hi1 : Inv s1 ∧ SInv s1 := ⟨inv_step hi.1 hs, sinv_step hi.1.t hi.2 hs⟩
      by_cases he1 : .ended ∈ s1.log
      · by_cases ha : a = .acceptFails
        · exact .inr (by simp [ha])
        · left
          by_cases hst : s.st = .stopped
          · obtain ⟨n, hn⟩ := hi.2.stopped hst; exact ⟨n, mem_run hr (mem_step hs hn)⟩
          · exfalso
            have hpc : s1.pc = .ended := hi1.1.t.ending.2 he1
            have hpn : s.pc ≠ .ended := fun hc => hn (hi.1.t.ending.1 hc)
            have keep : s1.pc = s.pc → False := fun hc => hpn (hc ▸ hpc)
            cases a with
            | connect => simp only [step] at hs; split at hs <;> cases hs; exact keep rfl
            | write x m => simp only [step] at hs; split at hs <;> cases hs; exact keep rfl
            | hangUp x => simp only [step] at hs; split at hs <;> cases hs; exact keep rfl
            | start => simp only [step] at hs; split at hs <;> cases hs; cases hpc
            | acceptFails => exact ha rfl
            | stop b => simp only [step] at hs; cases hs; exact keep rfl
            | go =>
              simp only [step, stepLoop, if_neg hst] at hs
              split at hs
              · cases hs
              · rename_i hp; rw [if_pos (hi.2.early (.inr (.inl hp)))] at hs; cases hs; cases hpc
              · cases hs; cases hpc
              · split at hs <;> cases hs <;> cases hpc
              · cases hs; cases hpc
              · split at hs <;> cases hs <;> cases hpc
              · split at hs <;> cases hs
                · unfold takeConn at hpc; split at hpc <;> cases hpc
                · cases hpc
              · split at hs <;> cases hs
                · unfold readSlot at hpc; split at hpc
                  · cases hpc
                  · split at hpc <;> cases hpc
                · cases hpc
              · cases hs
            | goStop m =>
              simp only [step, stepStop] at hs
              split at hs
              · cases hs
              · split at hs <;> cases hs <;> exact keep rfl
              · split at hs <;> cases hs <;> exact keep rfl
              · cases hs; exact keep rfl
              · cases hs; exact keep rfl
              · split at hs <;> cases hs; exact keep rfl
              · split at hs <;> cases hs; exact keep rfl
              · cases hs
      · rcases ih s1 s' hi1 hr he1 he with h | h
        · exact .inl h
        · exact .inr (by simp [h])

/-! ### Refuted -/

/-- n times -/
def gon (n : Nat) : List Act := List.replicate n .go

/-- The state after a run, for examples. -/
def after (as : List Act) : State := (run init as).getD init

/-- C76 in general: a call of `stop` that comes after `start` has created the listening thread, but before this one has
looked at the state, is not heard. The thread listens, and `stop` waits for it for ever. -/
theorem stop_lost : ∃ as s, run init as = some s ∧ Before .started (.stopCalled 0) s.log ∧
    ∀ bs s', run s bs = some s' → (∀ b, .stop b ∉ bs) → .acceptFails ∉ bs → .stopReturned 0 ∉ s'.log := by
  refine ⟨[.start, .stop true, .goStop 0], after [.start, .stop true, .goStop 0], rfl, ⟨[], [], [], rfl⟩, ?_⟩
  suffices ∀ (bs : List Act) (s s' : State), (Inv s ∧ SInv s) → (s.st ≠ .stopped ∧ s.pc ≠ .off ∧ s.pc ≠ .ended ∧ s.spc 0 = .join ∧ (∀ n, n ≠ 0 → s.spc n = .none)) →
      run s bs = some s' → (∀ b, .stop b ∉ bs) → .acceptFails ∉ bs → s'.spc 0 = .join by
    intro bs s' hr h1 h2 hc
    have hi : Inv (after [.start, .stop true, .goStop 0]) ∧ SInv (after [.start, .stop true, .goStop 0]) := reach_init (as := [.start, .stop true, .goStop 0]) rfl
    have h3 := this bs _ s' hi ⟨by decide, by decide, by decide, rfl, fun n hn => by simp [after, run, step, stepStop, setStop, upd, init, isRunning, hn]⟩ hr h1 h2
    have h4 := (reach hi hr).1.t.back 0 hc
    rw [h3] at h4; cases h4
  intro bs
  induction bs with
  | nil => intro s s' _ h hr _ _; cases hr; exact h.2.2.2.1
  | cons a as ih =>
    intro s s' hi ⟨h1, h2, h3, h4, h5⟩ hr hs1 hs2
    simp only [run] at hr
    cases hs : step s a with
    | none => rw [hs] at hr; cases hr
    | some s1 =>
      rw [hs] at hr
      refine ih s1 s' ⟨inv_step hi.1 hs, sinv_step hi.1.t hi.2 hs⟩ ?_ hr (fun b hc => hs1 b (by simp [hc])) (fun hc => hs2 (by simp [hc]))
      have keep : ∀ s1 : State, s1.st = s.st → s1.pc = s.pc → s1.spc = s.spc → s1.st ≠ .stopped ∧ s1.pc ≠ .off ∧ s1.pc ≠ .ended ∧ s1.spc 0 = .join ∧ (∀ n, n ≠ 0 → s1.spc n = .none) := by
        intro s1 e1 e2 e3; rw [e1, e2, e3]; exact ⟨h1, h2, h3, h4, h5⟩
      have move : ∀ s1 : State, s1.st ≠ .stopped → s1.pc ≠ .off → s1.pc ≠ .ended → s1.spc = s.spc → s1.st ≠ .stopped ∧ s1.pc ≠ .off ∧ s1.pc ≠ .ended ∧ s1.spc 0 = .join ∧ (∀ n, n ≠ 0 → s1.spc n = .none) := by
        intro s1 e1 e2 e3 e4; rw [e4]; exact ⟨e1, e2, e3, h4, h5⟩
      cases a with
      | connect => simp only [step] at hs; split at hs <;> cases hs; exact keep _ rfl rfl rfl
      | write x m => simp only [step] at hs; split at hs <;> cases hs; exact keep _ rfl rfl rfl
      | hangUp x => simp only [step] at hs; split at hs <;> cases hs; exact keep _ rfl rfl rfl
      | start => simp only [step] at hs; split at hs <;> cases hs; rename_i hp; exact absurd hp h2
      | acceptFails => exact absurd (by simp) hs2
      | stop b => exact absurd (by simp) (hs1 b)
      | goStop m =>
        by_cases hm : m = 0
        · subst hm
          simp only [step, stepStop, h4] at hs; split at hs
          · rename_i hc; exact absurd hc (by simp [h2, h3])
          · cases hs
        · simp only [step, stepStop, h5 m hm] at hs; cases hs
      | go =>
        simp only [step, stepLoop, if_neg h1] at hs
        split at hs
        · cases hs
        · rename_i hp; rw [if_pos (hi.2.early (.inr (.inl hp)))] at hs; cases hs; exact move _ h1 (by simp) (by simp) rfl
        · cases hs; exact move _ (by simp) (by simp) (by simp) rfl
        · split at hs <;> cases hs
          · exact move _ (by simp) (by simp) (by simp) rfl
          · exact move _ h1 (by simp) (by simp) rfl
        · cases hs; exact move _ h1 (by simp) (by simp) rfl
        · have e1 : (toRunning s).st ≠ .stopped := by unfold toRunning; split <;> simp [h1]
          have e2 : (toRunning s).spc = s.spc := by unfold toRunning; split <;> rfl
          split at hs <;> cases hs <;> exact move _ e1 (by simp) (by simp) e2
        · split at hs <;> cases hs
          · unfold takeConn; split <;> exact move _ h1 (by simp) (by simp) rfl
          · exact move _ h1 (by simp) (by simp) rfl
        · split at hs <;> cases hs
          · unfold readSlot; split
            · exact move _ h1 (by simp) (by simp) rfl
            · split <;> exact move _ h1 (by simp) (by simp) rfl
          · exact move _ h1 (by simp) (by simp) rfl
        · cases hs

def blocked : List Act := [.start] ++ gon 3 ++ [.connect, .connect, .connect, .connect, .connect, .connect, .stop false, .goStop 0, .goStop 0, .goStop 0] ++ gon 2

/-- C76 in general: `stop` wakes the listening thread by connecting to it. If six connections wait to be accepted, it
waits for room that the thread, which has ended meanwhile, never makes. -/
theorem stop_blocks : ∃ as s, run init as = some s ∧ .stopCalled 0 ∈ s.log ∧ .ended ∈ s.log ∧ ∀ bs s', run s bs = some s' → .stopReturned 0 ∉ s'.log := by
  refine ⟨blocked, after blocked, rfl, by decide, by decide, ?_⟩
  suffices ∀ (bs : List Act) (s s' : State), (s.pc = .ended ∧ s.spc 0 = .wake ∧ 6 ≤ s.backlog.length ∧ 0 < s.stops) → run s bs = some s' → s'.spc 0 = .wake by
    intro bs s' hr hc
    have hi : Inv (after blocked) ∧ SInv (after blocked) := reach_init (as := blocked) rfl
    have h3 := this bs _ s' ⟨by decide, by decide, by decide, by decide⟩ hr
    have h4 := (reach hi hr).1.t.back 0 hc
    rw [h3] at h4; cases h4
  intro bs
  induction bs with
  | nil => intro s s' h hr; cases hr; exact h.2.1
  | cons a as ih =>
    intro s s' ⟨h1, h2, h3, h4⟩ hr
    simp only [run] at hr
    cases hs : step s a with
    | none => rw [hs] at hr; cases hr
    | some s1 =>
      rw [hs] at hr
      refine ih s1 s' ?_ hr
      cases a with
      | connect => simp only [step] at hs; split at hs <;> cases hs; exact ⟨h1, h2, by simp [newConn]; omega, h4⟩
      | write x m => simp only [step] at hs; split at hs <;> cases hs; exact ⟨h1, h2, h3, h4⟩
      | hangUp x => simp only [step] at hs; split at hs <;> cases hs; exact ⟨h1, h2, h3, h4⟩
      | start => simp only [step] at hs; split at hs <;> cases hs; rename_i hp; rw [h1] at hp; cases hp
      | acceptFails => simp only [step, h1] at hs; cases hs
      | go => simp only [step, stepLoop, h1] at hs; cases hs
      | stop b =>
        simp only [step] at hs; cases hs
        have : (0 : Nat) ≠ s.stops := Nat.ne_of_lt h4
        exact ⟨h1, by simp [setStop, upd, this, h2], h3, Nat.succ_pos _⟩
      | goStop m =>
        by_cases hm : m = 0
        · subst hm
          have hf : full s = true := decide_eq_true h3
          simp only [step, stepStop, h2, hf] at hs; cases hs
        · have hu : ∀ p, upd s.spc m p 0 = s.spc 0 := fun p => by simp [upd, Ne.symm hm]
          have same : ∀ s1 : State, s1.pc = s.pc → s1.spc 0 = s.spc 0 → s.backlog.length ≤ s1.backlog.length → s1.stops = s.stops → s1.pc = .ended ∧ s1.spc 0 = .wake ∧ 6 ≤ s1.backlog.length ∧ 0 < s1.stops :=
            fun s1 e1 e2 e3 e4 => ⟨by rw [e1]; exact h1, by rw [e2]; exact h2, Nat.le_trans h3 e3, by rw [e4]; exact h4⟩
          simp only [step, stepStop] at hs
          split at hs
          · cases hs
          · split at hs <;> cases hs <;> exact same _ rfl (hu _) (Nat.le_refl _) rfl
          · split at hs <;> cases hs <;> exact same _ rfl (hu _) (Nat.le_refl _) rfl
          · cases hs; exact same _ rfl (hu _) (Nat.le_refl _) rfl
          · cases hs; exact same _ rfl (hu _) (Nat.le_refl _) rfl
          · split at hs <;> cases hs; exact same _ rfl (hu _) (by simp [setStop, hang, newConn]) rfl
          · split at hs <;> cases hs; exact same _ rfl (hu _) (Nat.le_refl _) rfl
          · cases hs

def stoppedThenSent : List Act := [.start] ++ gon 3 ++ [.stop false, .goStop 0, .goStop 0, .goStop 0, .goStop 0] ++ gon 2 ++ [.goStop 0, .connect, .write 1 [7]]

/-- C75 in general: the listening socket is never closed. After `stop` has returned, peers still connect and send, with
success; nobody ever reads it. -/
theorem sent_to_stopped : ∃ as s, run init as = some s ∧ Before (.stopReturned 0) (.wrote 1 [7]) s.log ∧ ∀ bs s' m, run s bs = some s' → .delivered 1 m ∉ s'.log := by
  refine ⟨stoppedThenSent, after stoppedThenSent, rfl, ?_, ?_⟩
  · exact ⟨[.started, .stopCalled 0, .connected 0, .hungUp 0, .ended], [.connected 1], [], by decide⟩
  · intro bs s' m hr hd
    have hi : Inv (after stoppedThenSent) ∧ SInv (after stoppedThenSent) := reach_init (as := stoppedThenSent) rfl
    have he : Ev.ended ∈ (after stoppedThenSent).log := by decide
    suffices ∀ (bs : List Act) (s s' : State), (Inv s ∧ SInv s) → .ended ∈ s.log → .delivered 1 m ∉ s.log → run s bs = some s' → .delivered 1 m ∉ s'.log from
      this bs _ s' hi he (by simp [after, stoppedThenSent, gon, run, step, stepLoop, stepStop, setStop, upd, init, isRunning, full, maxPending, newConn, hang, endThread, readySet, maxClients]) hr hd
    intro bs
    induction bs with
    | nil => intro s s' _ _ hn hr; cases hr; exact hn
    | cons a as ih =>
      intro s s' hi he hn hr
      simp only [run] at hr
      cases hs : step s a with
      | none => rw [hs] at hr; cases hr
      | some s1 =>
        rw [hs] at hr
        have hi1 := inv_step hi.1 hs
        refine ih s1 s' ⟨hi1, sinv_step hi.1.t hi.2 hs⟩ (mem_step hs he) (fun hc => ?_) hr
        obtain ⟨es, hes⟩ := log_step hs
        rw [hes] at hc
        rcases List.mem_append.1 hc with hc | hc
        · exact hn hc
        · obtain ⟨x, y, rfl⟩ := List.append_of_mem hc
          exact (hi1.hist.all (s.log ++ x) (.delivered 1 m) y (by rw [hes]; simp)).1 (by simp [he])

/-- One round of the loop in which a connection is accepted. -/
def round : List Act := gon 35

def thirtyIdle : List Act := [.start] ++ gon 3 ++ (List.replicate 30 ([Act.connect] ++ round)).flatten ++ [.connect, .write 30 [7]] ++ round

/-- C75 in general: with 30 connections open on which nothing was written, the next message is lost, although its sender
is told that it was sent. -/
theorem message_leaked : .wrote 30 [7] ∈ (after thirtyIdle).log ∧ .leaked 30 ∈ (after thirtyIdle).log ∧ (run init thirtyIdle).isSome := by
  refine ⟨?_, ?_, ?_⟩ <;> decide +kernel

/-! ### Not vacuous -/

/-- Two peers; the second connects after the first has written. -/
def two : List Act := [.start] ++ gon 3 ++ [.connect, .write 0 [1], .connect, .write 1 [2]] ++ gon 105

example : (after two).log = [.started, .connected 0, .wrote 0 [1], .connected 1, .wrote 1 [2], .accepted 0, .accepted 1, .delivered 0 [1], .delivered 1 [2]] := by decide +kernel

/-- `arrives_partial` and its hypotheses -/
example : .delivered 0 [1] ∈ ((run (after [.start, .connect, .write 0 [1]]) (gon 300)).getD init).log := by decide +kernel

def stopIt : List Act := [.goStop 0, .goStop 0, .goStop 0, .goStop 0]

/-- `stop_ends_partial`: the thread is in the middle of its slots when it is stopped, and has made 32 steps since. -/
example : ((run (after ([.start] ++ gon 3 ++ [.connect] ++ gon 3)) ([.stop true] ++ stopIt ++ gon 31)).getD init).pc = .top ∧
    ((run (after ([.start] ++ gon 3 ++ [.connect] ++ gon 3)) ([.stop true] ++ stopIt ++ gon 32)).getD init).pc = .ended := by decide +kernel

/-- `stop_ends_partial`, `stop_silences` and their hypotheses -/
example : ((run (after ([.start] ++ gon 3)) ([.stop true] ++ stopIt ++ gon 2 ++ [.goStop 0, .goStop 0])).getD init).log =
    [.started, .stopCalled 0, .ended, .connected 0, .hungUp 0, .stopReturned 0] ∧ isRunning (after ([.start] ++ gon 3)).st = true := by decide +kernel

end Maf.Listen
