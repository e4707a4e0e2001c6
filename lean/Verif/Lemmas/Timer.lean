import Verif.Spec.Timer
import Verif.Lemmas.Hist
namespace Maf.Tmr

@[simp] theorem upd_same {β : Type} (f : Nat → β) (i : Nat) (v : β) : upd f i v i = v := by simp [upd]
theorem upd_other {β : Type} {f : Nat → β} {i j : Nat} {v : β} (h : j ≠ i) : upd f i v j = f j := by simp [upd, h]

@[simp] theorem runningIn_append (i : Tm) (a b : List Ev) : runningIn (a ++ b) i = b.foldl (runStep i) (runningIn a i) := by simp [runningIn]
@[simp] theorem lastIn_append (i : Tm) (a b : List Ev) : lastIn (a ++ b) i = b.foldl (lastStep i) (lastIn a i) := by simp [lastIn]
@[simp] theorem firesIn_append (i : Tm) (a b : List Ev) : firesIn (a ++ b) i = b.foldl (firesStep i) (firesIn a i) := by simp [firesIn]

section
variable (s : State) (fs : List Frame) (j : Job)
@[simp] theorem ret_data : (ret s fs).data = s.data := by unfold ret; split <;> rfl
@[simp] theorem ret_log : (ret s fs).log = s.log := by unfold ret; split <;> rfl
@[simp] theorem ret_records : (ret s fs).records = s.records := by unfold ret; split <;> rfl
@[simp] theorem ret_jobs : (ret s fs).jobs = s.jobs := by unfold ret; split <;> rfl
@[simp] theorem ret_closed : (ret s fs).closed = s.closed := by unfold ret; split <;> rfl
@[simp] theorem ret_heapOk : (ret s fs).heapOk = s.heapOk := by unfold ret; split <;> rfl
@[simp] theorem ret_ub : (ret s fs).ub = s.ub := by unfold ret; split <;> rfl
@[simp] theorem ret_now : (ret s fs).now = s.now := by unfold ret; split <;> rfl
@[simp] theorem begin_data : (begin s fs j).data = s.data := by unfold begin; split <;> (try split) <;> simp
@[simp] theorem begin_log : (begin s fs j).log = s.log := by unfold begin; split <;> (try split) <;> simp
@[simp] theorem begin_records : (begin s fs j).records = s.records := by unfold begin; split <;> (try split) <;> simp
@[simp] theorem begin_jobs : (begin s fs j).jobs = s.jobs := by unfold begin; split <;> (try split) <;> simp
@[simp] theorem begin_closed : (begin s fs j).closed = s.closed := by unfold begin; split <;> (try split) <;> simp
@[simp] theorem begin_heapOk : (begin s fs j).heapOk = s.heapOk := by unfold begin; split <;> (try split) <;> simp
@[simp] theorem begin_ub : (begin s fs j).ub = s.ub := by unfold begin; split <;> (try split) <;> simp
@[simp] theorem begin_now : (begin s fs j).now = s.now := by unfold begin; split <;> (try split) <;> simp
@[simp] theorem push_data : (push s j).data = s.data := by unfold push; split <;> rfl
@[simp] theorem push_log : (push s j).log = s.log := by unfold push; split <;> rfl
@[simp] theorem push_records : (push s j).records = s.records := by unfold push; split <;> rfl
@[simp] theorem push_stack : (push s j).stack = s.stack := by unfold push; split <;> rfl
@[simp] theorem push_st : (push s j).st = s.st := by unfold push; split <;> rfl
@[simp] theorem push_closed : (push s j).closed = s.closed := by unfold push; split <;> rfl
@[simp] theorem push_heapOk : (push s j).heapOk = s.heapOk := by unfold push; split <;> rfl
@[simp] theorem push_ub : (push s j).ub = s.ub := by unfold push; split <;> rfl
@[simp] theorem push_now : (push s j).now = s.now := by unfold push; split <;> rfl
@[simp] theorem noteEmpty_data : (noteEmpty s).data = s.data := by unfold noteEmpty; split <;> rfl
@[simp] theorem noteEmpty_log : (noteEmpty s).log = s.log := by unfold noteEmpty; split <;> rfl
@[simp] theorem noteEmpty_records : (noteEmpty s).records = s.records := by unfold noteEmpty; split <;> rfl
@[simp] theorem noteEmpty_stack : (noteEmpty s).stack = s.stack := by unfold noteEmpty; split <;> rfl
@[simp] theorem noteEmpty_jobs : (noteEmpty s).jobs = s.jobs := by unfold noteEmpty; split <;> rfl
@[simp] theorem noteEmpty_closed : (noteEmpty s).closed = s.closed := by unfold noteEmpty; split <;> rfl
@[simp] theorem noteEmpty_heapOk : (noteEmpty s).heapOk = s.heapOk := by unfold noteEmpty; split <;> rfl
@[simp] theorem noteEmpty_ub : (noteEmpty s).ub = s.ub := by unfold noteEmpty; split <;> rfl
@[simp] theorem noteEmpty_now : (noteEmpty s).now = s.now := by unfold noteEmpty; split <;> rfl
end

/-- What a step does to the timers, the records and the log. -/
inductive Effect (s s' : State) : Prop
  | quiet (hd : s'.data = s.data) (hr : s'.records = s.records) (hh : s'.heapOk = s.heapOk) (hl : s'.log = s.log)
  | cyc (i : Tm) (b : Bool) (hd : s'.data = upd s.data i { s.data i with cyclic := b }) (hr : s'.records = s.records) (hh : s'.heapOk = s.heapOk) (hl : s'.log = s.log)
  | picked (i : Tm) (rest : List Tm) (h : s.records = i :: rest) (hd : s'.data = s.data) (hr : s'.records = s.records) (hh : s'.heapOk = s.heapOk) (hl : s'.log = s.log ++ [.picked i])
  | stopProc (hd : s'.data = s.data) (hr : s'.records = s.records) (hh : s'.heapOk = s.heapOk) (hl : s'.log = s.log ++ [.procStopped])
  | startRunning (i : Tm) (d : Nat) (h : (s.data i).running = true)
      (hd : s'.data = upd s.data i { s.data i with deadline := s.now + d, duration := d, running := true })
      (hr : Order s'.data true s.records s'.records) (hh : s'.heapOk = true) (hl : s'.log = s.log ++ [.started i s.now d])
  | startNew (i : Tm) (d : Nat) (h : (s.data i).running = false)
      (hd : s'.data = upd s.data i { s.data i with deadline := s.now + d, duration := d, running := true })
      (hh : s'.heapOk = (s.heapOk && !s.records.contains i))
      (hr : Order s'.data s'.heapOk (s.records ++ [i]) s'.records) (hl : s'.log = s.log ++ [.started i s.now d])
  | stopIdle (i : Tm) (h : (s.data i).running = false) (hd : s'.data = s.data) (hr : s'.records = s.records) (hh : s'.heapOk = s.heapOk) (hl : s'.log = s.log ++ [.stopped i])
  | stopFront (i : Tm) (rest : List Tm) (h : (s.data i).running = true) (hd : s'.data = upd s.data i { s.data i with running := false })
      (hf : s.records = i :: rest) (hh : s'.heapOk = s.heapOk) (hr : Order s'.data s.heapOk rest s'.records) (hl : s'.log = s.log ++ [.stopped i])
  | stopOther (i : Tm) (h : (s.data i).running = true) (hd : s'.data = upd s.data i { s.data i with running := false })
      (hf : i ∈ s.records) (hh : s'.heapOk = true) (hr : Order s'.data true (s.records.erase i) s'.records) (hl : s'.log = s.log ++ [.stopped i])
  | stopLost (i : Tm) (h : (s.data i).running = true) (hd : s'.data = upd s.data i { s.data i with running := false })
      (hf : ¬ s.records.Nodup ∨ i ∉ s.records) (hh : s'.heapOk = s.heapOk) (hr : s'.records = s.records) (hl : s'.log = s.log ++ [.stopped i])
  | restart (i : Tm) (hd : s'.data = upd s.data i { s.data i with deadline := s.now + (s.data i).duration, running := true })
      (hn : s.records ≠ []) (hh : s.heapOk = true → s'.heapOk = true) (hr : Order s'.data s'.heapOk s.records s'.records) (hl : s'.log = s.log ++ [.restarted i s.now])
  | restartUB (i : Tm) (hd : s'.data = upd s.data i { s.data i with deadline := s.now + (s.data i).duration, running := true })
      (hn : s.records = []) (hh : s'.heapOk = s.heapOk) (hr : s'.records = s.records) (hl : s'.log = s.log ++ [.restarted i s.now]) (hub : s'.ub = true)
  | fireUB (i : Tm) (h : (s.data i).running = true) (hn : s.records = []) (hd : s'.data = s.data) (hr : s'.records = s.records) (hh : s'.heapOk = s.heapOk) (hl : s'.log = s.log) (hub : s'.ub = true)
  | fire (i f : Tm) (rest : List Tm) (touched : Bool) (fs : List Frame) (h : (s.data i).running = true) (hst : s.stack = .waited i touched :: fs)
      (hdl : (s.data i).deadline ≤ s.now) (hf : s.records = f :: rest)
      (hl : s'.log = s.log ++ ((if touched then [Ev.overran i] else []) ++ [.fired i s.now (s.data i).deadline (s.data i).cyclic]))
      (hh : s'.heapOk = s.heapOk)
      (hc : ((s.data i).cyclic = true ∧ s'.data = upd s.data f { s.data f with deadline := (s.data f).deadline + (s.data f).duration } ∧ Order s'.data s.heapOk (f :: rest) s'.records) ∨
        ((s.data i).cyclic = false ∧ s'.data = upd s.data i { s.data i with running := false } ∧ Order s'.data s.heapOk rest s'.records))

theorem op_effect {s s' : State} {o : Op} {r : List Tm} (hs : operate s r o = some s') : Effect s s' := by
  cases o with
  | start i d =>
    simp only [operate] at hs
    by_cases hrun : (s.data i).running = true
    · rw [if_pos hrun, Option.ite_none_right_eq_some] at hs
      obtain ⟨ho, hs⟩ := hs
      cases hs
      refine .startRunning i d hrun ?_ ?_ ?_ ?_ <;> simp_all
    · rw [if_neg hrun, Option.ite_none_right_eq_some] at hs
      obtain ⟨ho, hs⟩ := hs
      cases hs
      refine .startNew i d ?_ ?_ ?_ ?_ ?_ <;> simp_all
  | stop i =>
    simp only [operate] at hs
    by_cases hrun : (s.data i).running = false
    · rw [if_pos hrun] at hs
      cases hs
      exact .stopIdle i hrun rfl rfl rfl rfl
    · rw [if_neg hrun] at hs
      split at hs
      · cases hs
        refine .stopLost i ?_ rfl (.inr ?_) rfl rfl rfl <;> simp_all
      · next f rest hrec =>
        split at hs
        · next hf =>
          subst hf
          split at hs
          · next ho =>
            cases hs
            refine .stopFront f rest ?_ ?_ hrec ?_ ?_ ?_ <;> (try split) <;> simp_all
          · cases hs
        · next hf =>
          split at hs
          · cases hs
            refine .stopLost i ?_ rfl (.inl ?_) rfl rfl rfl
            · simp_all
            · rw [hrec]
              intro hn
              have := (List.nodup_cons.1 hn).2
              have := this.count (a := i)
              have h2 : List.count i rest > 1 := ‹_›
              split at this <;> omega
          · split at hs
            · split at hs
              · cases hs
                refine .stopOther i ?_ rfl ?_ rfl ?_ rfl <;> simp_all
              · cases hs
            · cases hs
              refine .stopLost i ?_ rfl (.inr ?_) rfl rfl rfl
              · simp_all
              · rw [hrec]
                intro hm
                rcases List.mem_cons.1 hm with e | hm
                · exact hf e.symm
                · exact ‹¬ rest.contains i = true› (by simpa using hm)
  | restart i =>
    simp only [operate] at hs
    split at hs
    · cases hs
      exact .restartUB i rfl ‹_› rfl rfl rfl rfl
    · next f rest hrec =>
      rw [Option.ite_none_right_eq_some] at hs
      obtain ⟨ho, hs⟩ := hs
      cases hs
      refine .restart i ?_ ?_ ?_ ?_ ?_
      · simp
      · simp_all
      · intro h; simp [h]
      · rw [push_data, push_heapOk, push_records]; exact ho
      · simp
  | setCyclic i b =>
    simp only [operate] at hs
    cases hs
    exact .cyc i b rfl rfl rfl rfl

theorem touch_effect {s s' : State} {fs : List Frame} (hst : s.stack = .user :: fs) (h : Effect (touch s) s') : Effect s s' := by
  cases h with
  | quiet hd hr hh hl => exact .quiet hd hr hh hl
  | cyc i b hd hr hh hl => exact .cyc i b hd hr hh hl
  | picked i rest h hd hr hh hl => exact .picked i rest h hd hr hh hl
  | stopProc hd hr hh hl => exact .stopProc hd hr hh hl
  | startRunning i d h hd hr hh hl => exact .startRunning i d h hd hr hh hl
  | startNew i d h hd hh hr hl => exact .startNew i d h hd hh hr hl
  | stopIdle i h hd hr hh hl => exact .stopIdle i h hd hr hh hl
  | stopFront i rest h hd hf hh hr hl => exact .stopFront i rest h hd hf hh hr hl
  | stopOther i h hd hf hh hr hl => exact .stopOther i h hd hf hh hr hl
  | stopLost i h hd hf hh hr hl => exact .stopLost i h hd hf hh hr hl
  | restart i hd hn hh hr hl => exact .restart i hd hn hh hr hl
  | restartUB i hd hn hh hr hl hub => exact .restartUB i hd hn hh hr hl hub
  | fireUB i h hn hd hr hh hl hub => exact .fireUB i h hn hd hr hh hl hub
  | fire i f rest touched fs' h hst' => simp [touch, hst, Frame.touch] at hst'

theorem step_effect {s s' : State} {a : Act} (hs : step s a = some s') : Effect s s' := by
  cases a with
  | op o r =>
    simp only [step] at hs
    split at hs
    · cases hs
    · split at hs
      · exact touch_effect ‹_› (op_effect hs)
      · cases hs
  | fire r =>
    simp only [step] at hs
    split at hs
    · cases hs
    · split at hs
      · next i touched fs hst =>
        split at hs
        · cases hs
          refine .quiet ?_ ?_ ?_ ?_ <;> simp
        · split at hs
          · cases hs
            exact .quiet rfl rfl rfl rfl
          · split at hs
            · cases hs
              exact .quiet rfl rfl rfl rfl
            · split at hs
              · cases hs
                refine .fireUB i ?_ ‹_› rfl rfl rfl rfl rfl
                simp_all
              · next f rest hrec =>
                split at hs
                · split at hs
                  · cases hs
                    refine .fire i f rest touched fs ?_ hst ?_ hrec rfl rfl (.inl ?_) <;> simp_all
                  · cases hs
                · split at hs
                  · cases hs
                    refine .fire i f rest touched fs ?_ hst ?_ hrec ?_ ?_ (.inr ?_) <;> simp_all
                  · cases hs
      · cases hs
  | look =>
    simp only [step] at hs
    repeat' split at hs
    all_goals (first | (cases hs; done) | cases hs)
    · refine .quiet ?_ ?_ ?_ ?_ <;> simp
    · exact .picked _ _ ‹_› rfl rfl rfl rfl
    · exact .picked _ _ ‹_› rfl rfl rfl rfl
  | stopProc =>
    simp only [step] at hs
    repeat' split at hs
    all_goals (first | (cases hs; done) | cases hs)
    exact .stopProc rfl rfl rfl rfl
  | _ =>
    simp only [step] at hs
    repeat' split at hs
    all_goals (first | (cases hs; done) | cases hs)
    all_goals (refine .quiet ?_ ?_ ?_ ?_ <;> simp)

/-! ### Every history -/

structure Univ (s : State) : Prop where
  run : ∀ i, runningIn s.log i = (s.data i).running
  dur : ∀ i, (lastIn s.log i).2 = (s.data i).duration
  due : ∀ i, (s.data i).running = true → (lastIn s.log i).1 + (lastIn s.log i).2 ≤ (s.data i).deadline
  hist : Hist EvOk s.log

theorem Univ_step {s s' : State} {a : Act} (h : Univ s) (hs : step s a = some s') : Univ s' := by
  obtain ⟨h1, h2, h3, h4⟩ := h
  cases step_effect hs with
  | quiet hd hr hh hl => rw [← hl] at h1 h2 h3 h4; rw [← hd] at h1 h2 h3; exact ⟨h1, h2, h3, h4⟩
  | cyc i b hd hr hh hl =>
    rw [← hl] at h1 h2 h3 h4
    refine ⟨?_, ?_, ?_, h4⟩ <;> intro j <;> rw [hd] <;> by_cases e : j = i
    all_goals (first | (subst e; rw [upd_same]) | rw [upd_other e])
    all_goals (first | exact h1 j | exact h2 j | exact h3 j)
  | picked i rest h hd hr hh hl =>
    refine ⟨fun j => ?_, fun j => ?_, fun j => ?_, by rw [hl]; exact h4.one trivial⟩
    all_goals (rw [hl, hd]; simp [runStep, lastStep, h1, h2])
    intro hj; rw [← h2]; exact h3 j hj
  | stopProc hd hr hh hl =>
    refine ⟨fun j => ?_, fun j => ?_, fun j => ?_, by rw [hl]; exact h4.one trivial⟩
    all_goals (rw [hl, hd]; simp [runStep, lastStep, h1, h2])
    intro hj; rw [← h2]; exact h3 j hj
  | startRunning i d h hd hr hh hl =>
    refine ⟨fun j => ?_, fun j => ?_, fun j => ?_, by rw [hl]; exact h4.one trivial⟩
    all_goals (rw [hl, hd]; by_cases e : j = i)
    all_goals (first | (subst e; rw [upd_same]) | rw [upd_other e])
    all_goals (simp [runStep, lastStep, h1, h2, *])
    all_goals (simp [Ne.symm e, h1, h2])
    intro hj; rw [← h2]; exact h3 j hj
  | startNew i d h hd hh hr hl =>
    refine ⟨fun j => ?_, fun j => ?_, fun j => ?_, by rw [hl]; exact h4.one trivial⟩
    all_goals (rw [hl, hd]; by_cases e : j = i)
    all_goals (first | (subst e; rw [upd_same]) | rw [upd_other e])
    all_goals (simp [runStep, lastStep, h1, h2, *])
    all_goals (simp [Ne.symm e, h1, h2])
    intro hj; rw [← h2]; exact h3 j hj
  | stopIdle i h hd hr hh hl =>
    refine ⟨fun j => ?_, fun j => ?_, fun j => ?_, by rw [hl]; exact h4.one trivial⟩
    all_goals (rw [hl, hd]; by_cases e : j = i)
    all_goals (first | (subst e; simp [runStep, lastStep, h1, h2, h]; done) | (simp [runStep, lastStep, h1, h2, Ne.symm e]))
    intro hj; rw [← h2]; exact h3 j hj
  | stopFront i rest h hd hf hh hr hl =>
    refine ⟨fun j => ?_, fun j => ?_, fun j => ?_, by rw [hl]; exact h4.one trivial⟩
    all_goals (rw [hl, hd]; by_cases e : j = i)
    all_goals (first | (subst e; rw [upd_same]) | rw [upd_other e])
    all_goals (try (simp [runStep, lastStep, h1, h2, h]; done))
    all_goals (simp [runStep, lastStep, h1, h2, Ne.symm e])
    intro hj; rw [← h2]; exact h3 j hj
  | stopOther i h hd hf hh hr hl =>
    refine ⟨fun j => ?_, fun j => ?_, fun j => ?_, by rw [hl]; exact h4.one trivial⟩
    all_goals (rw [hl, hd]; by_cases e : j = i)
    all_goals (first | (subst e; rw [upd_same]) | rw [upd_other e])
    all_goals (try (simp [runStep, lastStep, h1, h2, h]; done))
    all_goals (simp [runStep, lastStep, h1, h2, Ne.symm e])
    intro hj; rw [← h2]; exact h3 j hj
  | stopLost i h hd hf hh hr hl =>
    refine ⟨fun j => ?_, fun j => ?_, fun j => ?_, by rw [hl]; exact h4.one trivial⟩
    all_goals (rw [hl, hd]; by_cases e : j = i)
    all_goals (first | (subst e; rw [upd_same]) | rw [upd_other e])
    all_goals (try (simp [runStep, lastStep, h1, h2, h]; done))
    all_goals (simp [runStep, lastStep, h1, h2, Ne.symm e])
    intro hj; rw [← h2]; exact h3 j hj
  | restart i hd hn hh hr hl =>
    refine ⟨fun j => ?_, fun j => ?_, fun j => ?_, by rw [hl]; exact h4.one trivial⟩
    all_goals (rw [hl, hd]; by_cases e : j = i)
    all_goals (first | (subst e; rw [upd_same]) | rw [upd_other e])
    all_goals (simp [runStep, lastStep, h1, h2, *])
    all_goals (simp [Ne.symm e, h1, h2])
    intro hj; rw [← h2]; exact h3 j hj
  | restartUB i hd hn hh hr hl hub =>
    refine ⟨fun j => ?_, fun j => ?_, fun j => ?_, by rw [hl]; exact h4.one trivial⟩
    all_goals (rw [hl, hd]; by_cases e : j = i)
    all_goals (first | (subst e; rw [upd_same]) | rw [upd_other e])
    all_goals (simp [runStep, lastStep, h1, h2, *])
    all_goals (simp [Ne.symm e, h1, h2])
    intro hj; rw [← h2]; exact h3 j hj
  | fireUB i h hn hd hr hh hl hub => rw [← hl] at h1 h2 h3 h4; rw [← hd] at h1 h2 h3; exact ⟨h1, h2, h3, h4⟩
  | fire i f rest touched fs h hst hdl hf hl hh hc =>
    have hr' : ∀ j, runningIn s'.log j = if j = i then (s.data i).cyclic else (s.data j).running := by
      intro j
      rw [hl]
      cases touched <;> simp [runStep, h1, eq_comm]
    have hl' : ∀ j, lastIn s'.log j = lastIn s.log j := by
      intro j
      rw [hl]
      cases touched <;> simp [lastStep]
    have hist : Hist EvOk s'.log := by
      rw [hl]
      cases touched
      · exact h4.one ⟨by rw [h1]; exact h, h3 i h, hdl⟩
      · refine h4.two trivial ⟨?_, ?_, hdl⟩
        · simp [runStep, h1, h]
        · simpa [lastStep] using h3 i h
    rcases hc with ⟨hcy, hd, -⟩ | ⟨hcy, hd, -⟩
    · refine ⟨fun j => ?_, fun j => ?_, fun j => ?_, hist⟩
      · rw [hr', hd]
        simp only [upd]
        split
        · next e => subst e; split <;> simp_all
        · split <;> simp_all
      · rw [hl', hd, h2]
        simp only [upd]
        split <;> simp_all
      · rw [hl', hd]
        simp only [upd]
        split
        · next e => subst e; intro hj; exact Nat.le_trans (h3 j hj) (Nat.le_add_right _ _)
        · exact h3 j
    · refine ⟨fun j => ?_, fun j => ?_, fun j => ?_, hist⟩
      · rw [hr', hd]
        simp only [upd]
        split <;> simp_all
      · rw [hl', hd, h2]
        simp only [upd]
        split <;> simp_all
      · rw [hl', hd]
        simp only [upd]
        split
        · simp
        · exact h3 j


/-! ### The stack -/

/-- The timer a frame takes for the front of the records. -/
def Frame.front? : Frame → Option Tm
  | .waiting i _ => some i
  | .held i false => some i
  | .waited i false => some i
  | _ => none

def Frame.deep : Frame → Bool
  | .waiting .. | .waited .. => false
  | _ => true

/-- Only the top frame waits or has just waited. -/
def NestI (s : State) : Prop := ∀ f ∈ s.stack.tail, f.deep = true

theorem ret_stack (s : State) (fs : List Frame) :
    (ret s fs).stack = fs ∨ ∃ i t gs, fs = .held i t :: gs ∧ (ret s fs).stack = .waited i t :: gs := by
  unfold ret; split
  · exact .inr ⟨_, _, _, rfl, rfl⟩
  · exact .inl rfl

theorem begin_stack (s : State) (fs : List Frame) (j : Job) :
    (begin s fs j).stack = .user :: fs ∨ (begin s fs j).stack = .check :: fs ∨ (begin s fs j).stack = (ret s fs).stack := by
  unfold begin; split
  · exact .inl rfl
  · exact .inr (.inr rfl)
  · split
    · exact .inr (.inr rfl)
    · exact .inr (.inl rfl)

theorem op_stack {s s' : State} {r : List Tm} {o : Op} (hs : operate s r o = some s') : s'.stack = s.stack := by
  cases o <;> simp only [operate] at hs <;> repeat' split at hs
  all_goals (first | (cases hs; done) | cases hs)
  all_goals (try simp)
  all_goals (try (split <;> simp))

theorem deep_touch {fs : List Frame} (h : ∀ f ∈ fs, f.deep = true) : ∀ f ∈ fs.map Frame.touch, f.deep = true ∧ f.front? = none := by
  intro f hf
  obtain ⟨g, hg, rfl⟩ := List.mem_map.1 hf
  have := h g hg
  cases g <;> simp_all [Frame.deep, Frame.touch, Frame.front?]

theorem ret_front {s : State} {fs : List Frame} (h : ∀ f ∈ fs, f.deep = true) : (∀ f ∈ (ret s fs).stack.tail, f.deep = true) ∧
    ∀ f ∈ (ret s fs).stack, ∃ g ∈ fs, g.front? = f.front? := by
  rcases ret_stack s fs with e | ⟨i, t, gs, rfl, e⟩ <;> rw [e]
  · exact ⟨fun f hf => h f (List.mem_of_mem_tail hf), fun f hf => ⟨f, hf, rfl⟩⟩
  · refine ⟨fun f hf => h f (by simp at hf ⊢; exact .inr hf), ?_⟩
    intro f hf
    rcases List.mem_cons.1 hf with rfl | hf
    · exact ⟨.held i t, by simp, by cases t <;> rfl⟩
    · exact ⟨f, by simp [hf], rfl⟩

theorem begin_front {s : State} {fs : List Frame} {j : Job} (h : ∀ f ∈ fs, f.deep = true) : (∀ f ∈ (begin s fs j).stack.tail, f.deep = true) ∧
    ∀ f ∈ (begin s fs j).stack, f.front? = none ∨ ∃ g ∈ fs, g.front? = f.front? := by
  rcases begin_stack s fs j with e | e | e <;> rw [e]
  · refine ⟨h, fun f hf => ?_⟩
    rcases List.mem_cons.1 hf with rfl | hf
    · exact .inl rfl
    · exact .inr ⟨f, hf, rfl⟩
  · refine ⟨h, fun f hf => ?_⟩
    rcases List.mem_cons.1 hf with rfl | hf
    · exact .inl rfl
    · exact .inr ⟨f, hf, rfl⟩
  · exact ⟨(ret_front h).1, fun f hf => .inr ((ret_front h).2 f hf)⟩

/-- What a step does to the stack. -/
theorem step_stack {s s' : State} {a : Act} (hn : NestI s) (hs : step s a = some s') : NestI s' ∧
    ∀ f ∈ s'.stack, f.front? = none ∨ (s'.records = s.records ∧ ((∃ g ∈ s.stack, g.front? = f.front?) ∨ f.front? = s.records.head?)) := by
  have same : s'.stack = s.stack → s'.records = s.records → NestI s' ∧
      ∀ f ∈ s'.stack, f.front? = none ∨ (s'.records = s.records ∧ ((∃ g ∈ s.stack, g.front? = f.front?) ∨ f.front? = s.records.head?)) := by
    intro e1 e2
    refine ⟨by unfold NestI; rw [e1]; exact hn, fun f hf => .inr ⟨e2, .inl ⟨f, by rw [← e1]; exact hf, rfl⟩⟩⟩
  cases a with
  | tick t => simp only [step] at hs; split at hs <;> cases hs; exact same rfl rfl
  | post => simp only [step] at hs; split at hs <;> cases hs; exact same (by simp) (by simp)
  | stopProc => simp only [step] at hs; split at hs <;> cases hs; exact same rfl rfl
  | reuse => simp only [step] at hs; split at hs <;> cases hs; exact same rfl rfl
  | take =>
    simp only [step] at hs
    repeat' split at hs
    all_goals (first | (cases hs; done) | cases hs)
    · rename_i j js _ _
      have := begin_front (s := { s with jobs := js }) (fs := []) (j := j) (by simp)
      refine ⟨this.1, fun f hf => ?_⟩
      rcases this.2 f hf with k | ⟨g, hg, -⟩
      · exact .inl k
      · cases hg
    · next j js fs hj hst =>
      have hd : ∀ f ∈ (Frame.user :: fs), f.deep = true := by
        intro f hf
        rcases List.mem_cons.1 hf with rfl | hf
        · rfl
        · exact hn f (by rw [hst]; exact hf)
      have := begin_front (s := { s with jobs := js }) (fs := .user :: fs) (j := j) hd
      refine ⟨this.1, fun f hf => ?_⟩
      rcases this.2 f hf with k | ⟨g, hg, k⟩
      · exact .inl k
      · exact .inr ⟨by simp, .inl ⟨g, by rw [hst]; exact hg, k⟩⟩
  | op o r =>
    simp only [step] at hs
    split at hs
    · cases hs
    · split at hs
      · next fs hst =>
        have e := op_stack hs
        have e' : s'.stack = .user :: fs.map Frame.touch := by rw [e]; simp [touch, hst, Frame.touch]
        have hd := deep_touch (fs := fs) fun f hf => hn f (by rw [hst]; exact hf)
        refine ⟨?_, fun f hf => .inl ?_⟩
        · unfold NestI; rw [e']; exact fun f hf => (hd f hf).1
        · rw [e'] at hf
          rcases List.mem_cons.1 hf with rfl | hf
          · rfl
          · exact (hd f hf).2
      · cases hs
  | ret =>
    simp only [step] at hs
    repeat' split at hs
    all_goals (first | (cases hs; done) | cases hs)
    next fs hst =>
    have := ret_front (s := s) (fs := fs) fun f hf => hn f (by rw [hst]; exact hf)
    refine ⟨this.1, fun f hf => .inr ⟨by simp, .inl ?_⟩⟩
    obtain ⟨g, hg, k⟩ := this.2 f hf
    exact ⟨g, by rw [hst]; simp [hg], k⟩
  | look =>
    simp only [step] at hs
    repeat' split at hs
    all_goals (first | (cases hs; done) | cases hs)
    · next fs hst _ _ =>
      have := ret_front (s := s) (fs := fs) fun f hf => hn f (by rw [hst]; exact hf)
      refine ⟨this.1, fun f hf => .inr ⟨by simp, .inl ?_⟩⟩
      obtain ⟨g, hg, k⟩ := this.2 f hf
      exact ⟨g, by rw [hst]; simp [hg], k⟩
    · have hrec := ‹s.records = _›
      have hst := ‹s.stack = _›
      refine ⟨fun f hf => hn f (by rw [hst]; exact hf), fun f hf => .inr ⟨rfl, ?_⟩⟩
      rcases List.mem_cons.1 hf with rfl | hf
      · right; rw [hrec]; rfl
      · exact .inl ⟨f, by rw [hst]; simp [hf], rfl⟩
    · have hrec := ‹s.records = _›
      have hst := ‹s.stack = _›
      refine ⟨fun f hf => hn f (by rw [hst]; exact hf), fun f hf => .inr ⟨rfl, ?_⟩⟩
      rcases List.mem_cons.1 hf with rfl | hf
      · right; rw [hrec]; rfl
      · exact .inl ⟨f, by rw [hst]; simp [hf], rfl⟩
  | waitJob =>
    simp only [step] at hs
    repeat' split at hs
    all_goals (first | (cases hs; done) | cases hs)
    rename_i i dl fs hst _ _ j js hj
    have hd : ∀ f ∈ (Frame.held i false :: fs), f.deep = true := by
      intro f hf
      rcases List.mem_cons.1 hf with rfl | hf
      · rfl
      · exact hn f (by rw [hst]; exact hf)
    have := begin_front (s := { s with jobs := js }) (fs := .held i false :: fs) (j := j) hd
    refine ⟨this.1, fun f hf => ?_⟩
    rcases this.2 f hf with k | ⟨g, hg, k⟩
    · exact .inl k
    · refine .inr ⟨by simp, .inl ?_⟩
      rcases List.mem_cons.1 hg with rfl | hg
      · exact ⟨.waiting i dl, by rw [hst]; simp, k⟩
      · exact ⟨g, by rw [hst]; simp [hg], k⟩
  | waitOut =>
    simp only [step] at hs
    repeat' split at hs
    all_goals (first | (cases hs; done) | cases hs)
    next i dl fs hst _ =>
    refine ⟨fun f hf => hn f (by rw [hst]; exact hf), fun f hf => .inr ⟨rfl, .inl ?_⟩⟩
    rcases List.mem_cons.1 hf with rfl | hf
    · exact ⟨.waiting i dl, by rw [hst]; simp, rfl⟩
    · exact ⟨f, by rw [hst]; simp [hf], rfl⟩
  | fire r =>
    simp only [step] at hs
    split at hs
    · cases hs
    · split at hs
      · next i touched fs hst =>
        have hd : ∀ f ∈ fs, f.deep = true := fun f hf => hn f (by rw [hst]; exact hf)
        have hcheck : s'.stack = .check :: fs → s'.records = s.records → NestI s' ∧
            ∀ f ∈ s'.stack, f.front? = none ∨ (s'.records = s.records ∧ ((∃ g ∈ s.stack, g.front? = f.front?) ∨ f.front? = s.records.head?)) := by
          intro e1 e2
          refine ⟨by unfold NestI; rw [e1]; exact hd, fun f hf => ?_⟩
          rw [e1] at hf
          rcases List.mem_cons.1 hf with rfl | hf
          · exact .inl rfl
          · exact .inr ⟨e2, .inl ⟨f, by rw [hst]; simp [hf], rfl⟩⟩
        have hfire : s'.stack = .user :: .check :: fs.map Frame.touch → NestI s' ∧
            ∀ f ∈ s'.stack, f.front? = none ∨ (s'.records = s.records ∧ ((∃ g ∈ s.stack, g.front? = f.front?) ∨ f.front? = s.records.head?)) := by
          intro e1
          refine ⟨?_, fun f hf => .inl ?_⟩
          · unfold NestI; rw [e1]
            intro f hf
            simp only [List.tail_cons] at hf
            rcases List.mem_cons.1 hf with rfl | hf
            · rfl
            · exact (deep_touch hd f hf).1
          · rw [e1] at hf
            rcases List.mem_cons.1 hf with rfl | hf
            · rfl
            · rcases List.mem_cons.1 hf with rfl | hf
              · rfl
              · exact (deep_touch hd f hf).2
        repeat' split at hs
        all_goals (first | (cases hs; done) | cases hs)
        · have := ret_front (s := s) hd
          refine ⟨this.1, fun f hf => .inr ⟨by simp, .inl ?_⟩⟩
          obtain ⟨g, hg, k⟩ := this.2 f hf
          exact ⟨g, by rw [hst]; simp [hg], k⟩
        · exact hcheck rfl rfl
        · exact hcheck rfl rfl
        · exact same rfl rfl
        all_goals exact hfire (by simp)
      · cases hs

/-! ### Calm histories -/

theorem Calm.prefix {a b : List Ev} (h : Calm (a ++ b)) : Calm a :=
  ⟨fun l1 i t l2 e => h.restart l1 i t (l2 ++ b) (by rw [e]; simp), fun i hi => h.jobs i (by simp [hi])⟩

structure CalmI (s : State) : Prop where
  ub : s.ub = false
  ok : s.heapOk = true
  nodup : s.records.Nodup
  mem : ∀ i, i ∈ s.records ↔ (s.data i).running = true
  min : ∀ f ∈ s.records.head?, ∀ j ∈ s.records, (s.data f).deadline ≤ (s.data j).deadline
  due : ∀ i, (s.data i).running = true → (s.data i).deadline = dueIn s.log i
  front : ∀ f ∈ s.stack, ∀ i, f.front? = some i → s.records.head? = some i
  hist : Hist CalmOk s.log

theorem op_ub {s s' : State} {r : List Tm} {o : Op} (h0 : s.ub = false) (hs : operate s r o = some s') (hub : s'.ub = true) :
    ¬ s.records.Nodup ∨ (s.records = [] ∧ ∃ i t, s'.log = s.log ++ [.restarted i t]) := by
  cases o with
  | start i d =>
    simp only [operate] at hs
    split at hs <;> rw [Option.ite_none_right_eq_some] at hs <;> obtain ⟨-, hs⟩ := hs <;> cases hs <;> simp [h0] at hub
  | stop i =>
    simp only [operate] at hs
    split at hs
    · cases hs; simp [h0] at hub
    split at hs
    · cases hs; simp [h0] at hub
    next f rest hrec =>
    split at hs
    · split at hs
      · cases hs
        split at hub <;> simp [h0] at hub
      · cases hs
    · split at hs
      · cases hs
        left
        rw [hrec]
        intro hn
        have := (List.nodup_cons.1 hn).2
        have := this.count (a := i)
        have h2 : List.count i rest > 1 := ‹_›
        split at this <;> omega
      · split at hs
        · split at hs
          · cases hs; simp [h0] at hub
          · cases hs
        · cases hs; simp [h0] at hub
  | restart i =>
    simp only [operate] at hs
    split at hs
    · cases hs
      exact .inr ⟨‹_›, i, _, rfl⟩
    · rw [Option.ite_none_right_eq_some] at hs
      obtain ⟨-, hs⟩ := hs
      cases hs
      simp [h0] at hub
  | setCyclic i b => simp only [operate] at hs; cases hs; simp [h0] at hub

theorem step_ub {s s' : State} {a : Act} (h0 : s.ub = false) (hs : step s a = some s') (hub : s'.ub = true) :
    ¬ s.records.Nodup ∨ (s.records = [] ∧ ((∃ i t, s'.log = s.log ++ [.restarted i t]) ∨ ∃ i, (s.data i).running = true)) := by
  cases a with
  | op o r =>
    simp only [step] at hs
    rw [if_neg (by simp [h0])] at hs
    split at hs
    · rcases op_ub (s := touch s) h0 hs hub with h | ⟨h1, h2⟩
      · exact .inl h
      · exact .inr ⟨h1, .inl h2⟩
    · cases hs
  | fire r =>
    simp only [step] at hs
    repeat' split at hs
    all_goals (first | (cases hs; done) | cases hs)
    all_goals (try (simp [h0] at hub; done))
    rename_i i _ _ _ _ _ hr _ _
    refine .inr ⟨‹_›, .inr ⟨i, ?_⟩⟩
    simp_all
  | _ =>
    simp only [step] at hs
    repeat' split at hs
    all_goals (first | (cases hs; done) | cases hs)
    all_goals (simp [h0] at hub)

theorem Order.mem {data : Tm → Data} {ok : Bool} {old r : List Tm} (h : Order data ok old r) (i : Tm) : i ∈ r ↔ i ∈ old := h.1.mem_iff
theorem Order.nodup {data : Tm → Data} {ok : Bool} {old r : List Tm} (h : Order data ok old r) : r.Nodup ↔ old.Nodup := h.1.nodup_iff

theorem CalmI_step {s s' : State} {a : Act} (hu : Univ s) (hu' : Univ s') (hn : NestI s) (h : CalmI s) (hs : step s a = some s') (hc : Calm s'.log) : CalmI s' := by
  have hfront : ∀ f ∈ s'.stack, ∀ i, f.front? = some i → s'.records.head? = some i := by
    intro f hf i hi
    rcases (step_stack hn hs).2 f hf with k | ⟨hr, ⟨g, hg, k⟩ | k⟩
    · rw [k] at hi; cases hi
    · rw [hr]; exact h.front g hg i (by rw [k, hi])
    · rw [hr, ← k, hi]
  have hub : s'.ub = false := by
    cases e : s'.ub with
    | false => rfl
    | true =>
      rcases step_ub h.ub hs e with k | ⟨k, ⟨i, t, hl⟩ | ⟨i, hi⟩⟩
      · exact absurd h.nodup k
      · have := hc.restart s.log i t [] hl
        rw [hu.run] at this
        have := (h.mem i).2 this
        rw [k] at this; cases this
      · have := (h.mem i).2 hi
        rw [k] at this; cases this
  have hist1 : ∀ e, s'.log = s.log ++ [e] → CalmOk s.log e → Hist CalmOk s'.log := fun e hl he => by rw [hl]; exact h.hist.one he
  have same : s'.data = s.data → s'.records = s.records → s'.heapOk = s.heapOk → (∀ i, dueIn s'.log i = dueIn s.log i) → Hist CalmOk s'.log → CalmI s' := by
    intro hd hr hh hl hist
    refine ⟨hub, by rw [hh]; exact h.ok, by rw [hr]; exact h.nodup, ?_, ?_, ?_, hfront, hist⟩
    · rw [hr, hd]; exact h.mem
    · rw [hr, hd]; exact h.min
    · intro i; rw [hd, hl]; exact h.due i
  cases step_effect hs with
  | quiet hd hr hh hl => exact same hd hr hh (by rw [hl]; exact fun _ => rfl) (by rw [hl]; exact h.hist)
  | cyc i b hd hr hh hl =>
    have e1 : ∀ j, (s'.data j).running = (s.data j).running := by intro j; rw [hd]; simp only [upd]; split <;> simp_all
    have e2 : ∀ j, (s'.data j).deadline = (s.data j).deadline := by intro j; rw [hd]; simp only [upd]; split <;> simp_all
    refine ⟨hub, by rw [hh]; exact h.ok, by rw [hr]; exact h.nodup, ?_, ?_, ?_, hfront, by rw [hl]; exact h.hist⟩
    · intro j; rw [hr, e1]; exact h.mem j
    · intro f hf j; rw [hr] at hf ⊢; rw [e2, e2]; exact h.min f hf j
    · intro j; rw [e1, e2, hl]; exact h.due j
  | picked i rest hrec hd hr hh hl =>
    refine same hd hr hh (fun j => by simp [dueIn, hl, lastStep, firesStep]) (hist1 _ hl ⟨?_, ?_⟩)
    · rw [hu.run, ← h.mem, hrec]; simp
    · intro j hj
      rw [hu.run] at hj
      have hi : (s.data i).running = true := by rw [← h.mem, hrec]; simp
      rw [← h.due i hi, ← h.due j hj]
      exact h.min i (by rw [hrec]; rfl) j ((h.mem j).2 hj)
  | stopProc hd hr hh hl => exact same hd hr hh (fun j => by simp [dueIn, hl, lastStep, firesStep]) (hist1 _ hl trivial)
  | startRunning i d hrun hd hr hh hl =>
    refine ⟨hub, hh, hr.nodup.2 h.nodup, ?_, hr.2 rfl, ?_, hfront, hist1 _ hl trivial⟩
    · intro j
      rw [hr.mem, h.mem, hd]; simp only [upd]; split <;> simp_all
    · intro j
      rw [hd, hl]
      by_cases e : j = i
      · subst e; simp [dueIn, lastStep, firesStep]
      · simp only [upd, e, if_false]; intro hj; rw [h.due j hj]; simp [dueIn, lastStep, firesStep, Ne.symm e]
  | startNew i d hrun hd hh hr hl =>
    have hni : i ∉ s.records := by rw [h.mem, hrun]; simp
    have hok : s'.heapOk = true := by rw [hh, h.ok]; simpa using hni
    refine ⟨hub, hok, hr.nodup.2 ?_, ?_, hr.2 hok, ?_, hfront, hist1 _ hl trivial⟩
    · rw [List.nodup_append]
      refine ⟨h.nodup, by simp, fun x hx y hy => ?_⟩
      rw [List.mem_singleton] at hy; subst hy
      intro e; subst e; exact hni hx
    · intro j
      rw [hr.mem, List.mem_append, h.mem, hd]; simp only [upd]; split <;> simp_all
    · intro j
      rw [hd, hl]
      by_cases e : j = i
      · subst e; simp [dueIn, lastStep, firesStep]
      · simp only [upd, e, if_false]; intro hj; rw [h.due j hj]; simp [dueIn, lastStep, firesStep, Ne.symm e]
  | stopIdle i hrun hd hr hh hl => exact same hd hr hh (fun j => by simp [dueIn, hl, lastStep, firesStep]) (hist1 _ hl trivial)
  | stopFront i rest hrun hd hf hh hr hl =>
    have hnd := h.nodup
    rw [hf, List.nodup_cons] at hnd
    refine ⟨hub, by rw [hh]; exact h.ok, hr.nodup.2 hnd.2, ?_, hr.2 h.ok, ?_, hfront, hist1 _ hl trivial⟩
    · intro j
      have hm := h.mem j
      rw [hf, List.mem_cons] at hm
      rw [hr.mem, hd]; simp only [upd]; split
      · next e => subst e; simp [hnd.1]
      · next e => rw [← hm]; simp [e]
    · intro j
      rw [hd, hl]
      simp only [upd]; split
      · simp
      · intro hj; rw [h.due j hj]; simp [dueIn, lastStep, firesStep]
  | stopOther i hrun hd hf hh hr hl =>
    refine ⟨hub, hh, hr.nodup.2 (h.nodup.erase i), ?_, hr.2 rfl, ?_, hfront, hist1 _ hl trivial⟩
    · intro j
      rw [hr.mem, h.nodup.mem_erase_iff, h.mem, hd]; simp only [upd]; split <;> simp_all
    · intro j
      rw [hd, hl]
      simp only [upd]; split
      · simp
      · intro hj; rw [h.due j hj]; simp [dueIn, lastStep, firesStep]
  | stopLost i hrun hd hf hh hr hl =>
    rcases hf with k | k
    · exact absurd h.nodup k
    · exact absurd ((h.mem i).2 hrun) k
  | restart i hd hne hh hr hl =>
    have hrun : (s.data i).running = true := by rw [← hu.run]; exact hc.restart s.log i _ [] hl
    refine ⟨hub, hh h.ok, hr.nodup.2 h.nodup, ?_, hr.2 (hh h.ok), ?_, hfront, hist1 _ hl trivial⟩
    · intro j
      rw [hr.mem, h.mem, hd]; simp only [upd]; split <;> simp_all
    · intro j
      rw [hd, hl]
      by_cases e : j = i
      · subst e; simp [dueIn, lastStep, firesStep, hu.dur]
      · simp only [upd, e, if_false]; intro hj; rw [h.due j hj]; simp [dueIn, lastStep, firesStep, Ne.symm e]
  | restartUB i hd hne hh hr hl hub' => rw [hub] at hub'; cases hub'
  | fireUB i _ hne hd hr hh hl hub' => rw [hub] at hub'; cases hub'
  | fire i f rest touched fs hrun hst hdl hf hl hh hcase =>
    cases touched with
    | true => exact absurd (by rw [hl]; simp) (hc.jobs i)
    | false =>
    simp only [Bool.false_eq_true, if_false, List.nil_append] at hl
    have hfi : f = i := by
      have := h.front (.waited i false) (by rw [hst]; simp) i rfl
      rw [hf] at this; simpa using this
    subst hfi
    have hist' : Hist CalmOk s'.log := by
      refine hist1 _ hl ⟨h.due f hrun, ?_⟩
      intro j hj
      rw [hu.run] at hj
      rw [← h.due j hj]
      exact h.min f (by rw [hf]; rfl) j ((h.mem j).2 hj)
    rcases hcase with ⟨hcy, hd, ho⟩ | ⟨hcy, hd, ho⟩
    · rw [← hf] at ho
      refine ⟨hub, by rw [hh]; exact h.ok, ho.nodup.2 h.nodup, ?_, ho.2 h.ok, ?_, hfront, hist'⟩
      · intro j
        rw [ho.mem, h.mem, hd]; simp only [upd]; split <;> simp_all
      · intro j
        rw [hd, hl]
        by_cases e : j = f
        · subst e
          simp only [upd, if_true]
          intro hj; rw [h.due j hj]; simp [dueIn, lastStep, firesStep, ← hu.dur]
          rw [Nat.add_mul (_ + 1) 1]; omega
        · simp only [upd, e, if_false]; intro hj; rw [h.due j hj]; simp [dueIn, lastStep, firesStep, Ne.symm e]
    · have hnd := h.nodup
      rw [hf, List.nodup_cons] at hnd
      refine ⟨hub, by rw [hh]; exact h.ok, ho.nodup.2 hnd.2, ?_, ho.2 h.ok, ?_, hfront, hist'⟩
      · intro j
        have hm := h.mem j
        rw [hf, List.mem_cons] at hm
        rw [ho.mem, hd]; simp only [upd]; split
        · next e => subst e; simp [hnd.1]
        · next e => rw [← hm]; simp [e]
      · intro j
        rw [hd, hl]
        by_cases e : j = f
        · subst e; simp
        · simp only [upd, e, if_false]; intro hj; rw [h.due j hj]; simp [dueIn, lastStep, firesStep, Ne.symm e]

theorem init_inv : Univ init ∧ NestI init ∧ CalmI init :=
  ⟨⟨fun _ => rfl, fun _ => rfl, fun _ h => by simp [init] at h, Hist.nil⟩, fun f hf => by simp [init] at hf,
   ⟨rfl, rfl, by simp [init], by simp [init], by simp [init], by simp [init], by simp [init], Hist.nil⟩⟩

theorem step_log {s s' : State} {a : Act} (hs : step s a = some s') : ∃ b, s'.log = s.log ++ b := by
  cases step_effect hs with
  | fire i f rest touched fs hrun hst hdl hf hl hh hcase => exact ⟨_, hl⟩
  | _ => first | exact ⟨_, ‹s'.log = s.log ++ _›⟩ | exact ⟨[], by rw [‹s'.log = s.log›]; simp⟩

theorem reach_univ {as : List Act} {s : State} (hr : run init as = some s) : Univ s ∧ NestI s ∧ (Calm s.log → CalmI s) := by
  suffices ∀ as s0, (Univ s0 ∧ NestI s0 ∧ (Calm s0.log → CalmI s0)) → run s0 as = some s → Univ s ∧ NestI s ∧ (Calm s.log → CalmI s) from
    this as init ⟨init_inv.1, init_inv.2.1, fun _ => init_inv.2.2⟩ hr
  intro as
  induction as with
  | nil => intro s0 h e; simp only [run] at e; cases e; exact h
  | cons a as ih =>
    intro s0 h e
    simp only [run] at e
    cases hst : step s0 a with
    | none => rw [hst] at e; cases e
    | some s1 =>
      rw [hst] at e
      have hu' := Univ_step h.1 hst
      refine ih s1 ⟨hu', (step_stack h.2.1 hst).1, fun hc => ?_⟩ e
      obtain ⟨b, hb⟩ := step_log hst
      exact CalmI_step h.1 hu' h.2.1 (h.2.2 (by rw [hb] at hc; exact hc.prefix)) hst hc

end Maf.Tmr
