import Verif.Lemmas.TimerThreads
import Verif.Props.Timer
/-
C121: timers and threads.
-/
namespace Maf.Xtm
open Maf.Tmr (Tm)

/-- Threads do not disturb each other as long as calls on a timer are made on its own thread: what happens on each thread is a history of Model/Timer.lean, where the thread is
alone; its log, jobs, records and stack and the data of its timers are the same. -/
theorem alone_partial {own : Tm → Tid} {as : List Act} {s : State} (hr : run init as = some s) (hc : Confined own as) (p : Tid) :
    ∃ T, Tmr.run Tmr.init (actsOf p as) = some T ∧ T.log = (s.proc p).log ∧ T.jobs = (s.proc p).jobs ∧ T.records = (s.proc p).records ∧
      T.stack = (s.proc p).stack ∧ T.closed = (s.proc p).closed ∧ T.ub = (s.proc p).ub ∧ T.now = s.now ∧ ∀ i, own i = p → T.data i = s.data i := by
  obtain ⟨T, hs, ht⟩ := sim_run (Sim_init own) hc hr
  have h := hs.ag p
  have e := h.same
  simp only [view] at e
  refine ⟨T p, ht p, ?_⟩
  generalize T p = Tp at e h
  cases Tp
  simp only [Tmr.State.mk.injEq, true_and] at e
  obtain ⟨h1, h2, h3, h4, h5, h6, h7, h8, h9⟩ := e
  exact ⟨h9.symm, h4.symm, h2.symm, h6.symm, h5.symm, h8.symm, h1.symm, fun i hi => (h.data i hi).symm⟩

/-- So what was proved of one thread holds of each; for instance: after a stop, a timer does not fire until it is started again, -/
theorem stopped_silent_partial {own : Tm → Tid} {as : List Act} {s : State} (hr : run init as = some s) (hc : Confined own as) {p : Tid} {i : Tm}
    {t dl : Nat} {c : Bool} {l1 l2 l3 : List Tmr.Ev} (hl : (s.proc p).log = l1 ++ .stopped i :: l2 ++ .fired i t dl c :: l3) : ∃ e ∈ l2, Tmr.Sets i e := by
  obtain ⟨T, hT, hlog, _⟩ := alone_partial hr hc p
  exact Tmr.stopped_silent hT (hlog.trans hl)

/-- and not before its time has come. -/
theorem not_early_partial {own : Tm → Tid} {as : List Act} {s : State} (hr : run init as = some s) (hc : Confined own as) {p : Tid} {i : Tm}
    {t0 d t dl : Nat} {c : Bool} {l1 l2 l3 : List Tmr.Ev} (hl : (s.proc p).log = l1 ++ .started i t0 d :: l2 ++ .fired i t dl c :: l3)
    (hno : ∀ e ∈ l2, ¬ Tmr.Sets i e) : t0 + d ≤ t := by
  obtain ⟨T, hT, hlog, _⟩ := alone_partial hr hc p
  exact Tmr.not_early_start hT (hlog.trans hl) hno

/-- The thread of processor `p` is in the loop over its timers, with `i` in front. -/
def Looping (s : State) (p : Tid) (i : Tm) : Prop :=
  s.ub = false ∧ (s.proc p).ub = false ∧ (s.proc p).records.head? = some i ∧ ∃ fs, (s.proc p).stack = .check :: fs ∨ ∃ b, (s.proc p).stack = .waited i b :: fs

/-- The timer is dead, and the processor has not been stopped. -/
def DeadOpen (p : Tid) (i : Tm) (s : State) : Prop := Dead s i ∧ (s.proc p).closed = false

theorem looping_step {s s' : State} {p : Tid} {i : Tm} {a : Act} (h : Looping s p i) (hu : DeadOpen p i s) (hu' : DeadOpen p i s') (hr : step s a = some s') :
    (s'.ub = false → Looping s' p i) ∧ (∃ b, (s'.proc p).log = (s.proc p).log ++ b ∧ ∀ e ∈ b, e = .picked i) ∧ ∃ js, (s'.proc p).jobs = (s.proc p).jobs ++ js := by
  obtain ⟨h1, h2, h3, fs, h4⟩ := h
  obtain ⟨⟨hd1, hd2⟩, hcl⟩ := hu
  simp only [step, h1, Bool.false_eq_true, if_false] at hr
  have same : ∀ s', s'.proc p = s.proc p → (s'.ub = false → Looping s' p i) ∧ (∃ b, (s'.proc p).log = (s.proc p).log ++ b ∧ ∀ e ∈ b, e = .picked i) ∧ ∃ js, (s'.proc p).jobs = (s.proc p).jobs ++ js := by
    intro s' e
    rw [Looping, e]
    exact ⟨fun hu => ⟨hu, h2, h3, fs, h4⟩, ⟨[], by simp, by simp⟩, [], by simp⟩
  cases a with
  | tick t => cases hr; exact same _ rfl
  | outside j => cases hr; exact same _ rfl
  | on q x =>
    simp only at hr
    split at hr
    · cases hr
    · rename_i htick
      simp only [Option.map_eq_some_iff] at hr
      obtain ⟨v, hv, rfl⟩ := hr
      by_cases hq : q = p
      · subst hq
        have e : (put s q v).proc q = v := by simp [put, Tmr.upd]
        have hc' : v.closed = false := by have := hu'.2; rwa [e] at this
        rw [Looping, e]
        have key : v.records.head? = some i ∧ (∃ fs, v.stack = .check :: fs ∨ ∃ b, v.stack = .waited i b :: fs) ∧ v.ub = false ∧ (∃ b, v.log = (s.proc q).log ++ b ∧ ∀ e ∈ b, e = .picked i) ∧ ∃ js, v.jobs = (s.proc q).jobs ++ js := by
          obtain ⟨rest, hrec⟩ : ∃ rest, (s.proc q).records = i :: rest := by
            cases hrr : (s.proc q).records with
            | nil => simp [hrr] at h3
            | cons f r => simp [hrr] at h3; subst h3; exact ⟨r, rfl⟩
          rcases h4 with h4 | ⟨b, h4⟩
          · cases x <;> simp only [Tmr.step, view, h2, h4, hrec, hcl, hd1, hd2, Bool.false_eq_true, if_false, if_true, push_eq, Option.some.injEq, reduceCtorEq, isTick, not_true] at hv htick
            · subst hv; exact ⟨by simp [hrec], ⟨fs, .inl rfl⟩, rfl, ⟨[], by simp, by simp⟩, _, rfl⟩
            · subst hv; simp at hc'
            · subst hv; exact ⟨by simp [hrec], ⟨fs, .inl rfl⟩, rfl, ⟨[], by simp, by simp⟩, [], by simp⟩
            · split at hv <;> simp_all
            · subst hv; exact ⟨by simp [hrec], ⟨fs, .inr ⟨_, rfl⟩⟩, rfl, ⟨[_], rfl, by simp⟩, [], by simp⟩
          · cases x <;> simp only [Tmr.step, view, h2, h4, hrec, hcl, hd1, hd2, Nat.not_lt.2 hd2, Bool.false_eq_true, if_false, if_true, push_eq, Option.some.injEq, reduceCtorEq, isTick, not_true] at hv htick
            · subst hv; exact ⟨by simp [hrec], ⟨fs, .inr ⟨b, rfl⟩⟩, rfl, ⟨[], by simp, by simp⟩, _, rfl⟩
            · subst hv; simp at hc'
            · subst hv; exact ⟨by simp [hrec], ⟨fs, .inr ⟨b, rfl⟩⟩, rfl, ⟨[], by simp, by simp⟩, [], by simp⟩
            · split at hv <;> simp_all
            · subst hv; exact ⟨by simp [hrec], ⟨fs, .inl rfl⟩, rfl, ⟨[], by simp, by simp⟩, [], by simp⟩
        exact ⟨fun hu => ⟨hu, key.2.2.1, key.1, key.2.1⟩, key.2.2.2⟩
      · exact same _ (by simp [put, Tmr.upd, Ne.symm hq])

/-- A timer that was stopped, or destroyed, on another thread takes the processor's thread with it: as long as it is not started again and the processor is not
stopped, that thread runs no job and calls no callback, whatever is posted and whatever other timers are due there; and it does not rest. -/
theorem spins {s s' : State} {p : Tid} {i : Tm} {as : List Act} (h : Looping s p i) (hr : RunIn (fun s => DeadOpen p i s ∧ s.ub = false) s as s') :
    Looping s' p i ∧ (∃ b, (s'.proc p).log = (s.proc p).log ++ b ∧ ∀ e ∈ b, e = .picked i) ∧ (∃ js, (s'.proc p).jobs = (s.proc p).jobs ++ js) ∧
    ∃ s'', step s' (.on p .look) = some s'' ∨ step s' (.on p (.fire [])) = some s'' := by
  induction hr with
  | nil hP =>
    refine ⟨h, ⟨[], by simp, by simp⟩, ⟨[], by simp⟩, ?_⟩
    rename_i s0
    obtain ⟨h1, h2, h3, fs, h4⟩ := h
    obtain ⟨⟨⟨hd1, hd2⟩, hcl⟩, -⟩ := hP
    obtain ⟨rest, hrec⟩ : ∃ rest, (s0.proc p).records = i :: rest := by
      cases hrr : (s0.proc p).records with
      | nil => simp [hrr] at h3
      | cons f r => simp [hrr] at h3; subst h3; exact ⟨r, rfl⟩
    rcases h4 with h4 | ⟨b, h4⟩
    · exact ⟨_, .inl (by simp only [step, h1, isTick, Tmr.step, view, h2, h4, hrec, hd2, Bool.false_eq_true, if_false, if_true, Option.map_some]; rfl)⟩
    · exact ⟨_, .inr (by simp only [step, h1, isTick, Tmr.step, view, h2, h4, hcl, hd1, Nat.not_lt.2 hd2, Bool.false_eq_true, if_false, if_true, Option.map_some]; rfl)⟩
  | cons hP hs hr ih =>
    rename_i s0 s1 s2 a as
    have hP1 : DeadOpen p i s1 ∧ s1.ub = false := by cases hr with | nil h => exact h | cons h _ _ => exact h
    have k := looping_step h hP.1 hP1.1 hs
    obtain ⟨a1, ⟨b, hb, hbe⟩, ⟨js, hj⟩, a2⟩ := ih (k.1 hP1.2)
    obtain ⟨⟨b0, hb0, hbe0⟩, js0, hj0⟩ := k.2
    refine ⟨a1, ⟨b0 ++ b, by rw [hb, hb0]; simp, ?_⟩, ⟨js0 ++ js, by rw [hj, hj0]; simp⟩, a2⟩
    intro e he
    rcases List.mem_append.1 he with he | he
    · exact hbe0 e he
    · exact hbe e he

/-- Timers 0 and 1 run on the processor of thread 1; the `Timer` of timer 0 is destroyed on a thread of its own. -/
def gone : List Act :=
  [.on 1 .post, .on 1 .take, .on 1 (.op (.start 0 5) [0]), .on 1 (.op (.start 1 6) [0, 1]), .on 1 .ret, .on 1 .take, .on 1 .look, .outside 0,
   .on 1 .waitJob, .on 1 (.fire []), .on 1 .look, .tick 7, .on 1 .waitOut]

/-- That is enough: timer 1 is due and is never called. -/
theorem stopped_elsewhere_spins : ∃ s, run init gone = some s ∧ Looping s 1 0 ∧ DeadOpen 1 0 s ∧ (s.data 1).running = true ∧ (s.data 1).deadline ≤ s.now :=
  ⟨_, rfl, ⟨rfl, rfl, rfl, [], .inr ⟨_, rfl⟩⟩, ⟨⟨rfl, by decide⟩, rfl⟩, rfl, by decide⟩

/-- The timer is destroyed before the job of its `start(…, processor)` has been run: it is started and fires afterwards. -/
theorem destroyed_fires : ∃ as bs s s', run init (as ++ [.outside 0]) = some s ∧ run s bs = some s' ∧ (∀ p o r, .on p (.op o r) ∉ as) ∧ Tmr.Ev.fired 0 5 5 false ∈ (s'.proc 1).log :=
  ⟨[.on 1 .post], [.on 1 .take, .on 1 (.op (.start 0 5) [0]), .on 1 .ret, .on 1 .take, .on 1 .look, .tick 5, .on 1 .waitOut, .on 1 (.fire [])],
    _, _, rfl, rfl, by simp, by decide⟩

/-- `restart` on a thread without timers is undefined behaviour. -/
theorem restart_elsewhere : ∃ as s, run init as = some s ∧ (s.data 0).running = true ∧ s.ub = true ∧ as.getLast? = some (.on 2 (.op (.restart 0) [])) :=
  ⟨[.on 1 .post, .on 1 .take, .on 1 (.op (.start 0 5) [0]), .on 2 .post, .on 2 .take, .on 2 (.op (.restart 0) [])], _, rfl, rfl, rfl, rfl⟩

/-- `start` with a shorter time on another thread: the timer is due, but its thread waits for the time it was given first, and can do nothing else; and the other
thread knows nothing of it. -/
theorem start_elsewhere_late : ∃ as s, run init as = some s ∧ (s.data 0).running = true ∧ (s.data 0).deadline ≤ s.now ∧
    (s.proc 1).stack = [.waiting 0 50] ∧ (s.proc 1).jobs = [] ∧ (s.proc 2).records = [] ∧ (s.proc 2).stack = [] ∧ (s.proc 2).jobs = [] ∧ s.now = 9 :=
  ⟨[.on 1 .post, .on 1 .take, .on 1 (.op (.start 0 50) [0]), .on 1 .ret, .on 1 .take, .on 1 .look, .on 2 .post, .on 2 .take,
    .on 2 (.op (.start 0 5) []), .on 2 .ret, .on 2 .take, .on 2 .look, .tick 9], _, rfl, rfl, by decide, rfl, rfl, rfl, rfl, rfl, rfl⟩

/-! The hypotheses can be met: two threads, each with a timer of its own, that fire. -/

def two : List Act :=
  [.on 1 .post, .on 1 .take, .on 1 (.op (.start 0 5) [0]), .on 2 .post, .on 2 .take, .on 1 .ret, .on 2 (.op (.start 1 3) [1]), .on 2 .ret, .on 1 .take, .on 2 .take,
   .on 1 .look, .on 2 .look, .tick 4, .on 2 .waitOut, .on 2 (.fire []), .tick 6, .on 1 .waitOut, .on 1 (.fire [])]

example : ∃ s, run init two = some s ∧ (s.proc 1).log = [.started 0 0 5, .picked 0, .fired 0 6 5 false] ∧
    (s.proc 2).log = [.started 1 0 3, .picked 1, .fired 1 4 3 false] := ⟨_, rfl, rfl, rfl⟩

example : Confined (fun i => i + 1) two := by
  intro a ha
  simp only [two, List.mem_cons, List.not_mem_nil, or_false] at ha
  rcases ha with rfl | rfl | rfl | rfl | rfl | rfl | rfl | rfl | rfl | rfl | rfl | rfl | rfl | rfl | rfl | rfl | rfl | rfl <;> simp [timerOf]

end Maf.Xtm
