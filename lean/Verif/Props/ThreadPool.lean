import Verif.Lemmas.ThreadPool
/-
Properties C46, C47, C55, C56: the thread pools.

All theorems are about every run `run k (init α st hw n) acts = some s` of a pool built
for `n` threads (`st`: fixed-size): any number of user threads, any tasks, any schedule.
`k` is the kind of the task queue: `Maf.Q.fifo α`, or `Maf.Q.prio lt` for the priority pool.
-/
namespace Maf.Pool
open Maf.Q (Tid Ev Kind entries)
set_option linter.unusedSectionVars false
variable {α : Type} [DecidableEq α]

/-! ### C46: every task exactly once -/

/-- Every task that entered the pool is, at any time, in exactly one of these places: run by
a worker, taken by a worker that has not started it yet, finished at shutdown without being
run, or still queued. -/
theorem tasks_conserved (k : Kind α) (st : Bool) (hw n : Nat) (acts : List (Act α)) (s : State α)
    (h : run k (init α st hw n) acts = some s) :
    (entries s.tq.log).Perm (ranL s.log ++ held notYetRun s ++ doneQueuedL s.log ++ s.tq.q) := by
  obtain ⟨qas, _, hq⟩ := run_queue h
  have hi := inv_run h
  refine (Maf.Q.queue_conserves k qas _ hq).trans (List.Perm.append_right _ ?_)
  refine (exits_perm _).trans ?_
  rw [← hi.gots, ← hi.cleareds]
  exact hi.took.append_right _

/-- A task that was run is reported done once, after it was run. -/
theorem ran_then_done (k : Kind α) (st : Bool) (hw n : Nat) (acts : List (Act α)) (s : State α)
    (h : run k (init α st hw n) acts = some s) :
    (ranL s.log).Perm (doneRunL s.log ++ held beingRun s) :=
  (inv_run h).ran

/-- The pool's queue is never popped when empty. -/
theorem pool_no_ub (k : Kind α) (st : Bool) (hw n : Nat) (acts : List (Act α)) (s : State α)
    (h : run k (init α st hw n) acts = some s) : s.tq.ub = false := by
  obtain ⟨qas, hn, hq⟩ := run_queue h
  exact Maf.Q.no_pop_from_empty_partial k qas _ hn hq

/-- Shutdown progress: the queue is closed from its first step on, the first `i` threads
have left their loop when the `i`-th is looked at, and no worker has a task afterwards. -/
structure Shut (s : State α) : Prop where
  closed : s.sh ≠ .notCalled → s.tq.closed = true
  joining : ∀ t i, s.sh = .joining t i → ∀ j n, j < i → s.workers[j]? = some n → s.w n = .exited
  finished : s.sh = .finished → ∀ n ∈ s.workers, s.w n = .loop ∨ s.w n = .exited

/-- A worker which is not `exited` moves on: nothing changes for `Shut` unless it takes a
task after the end of the shutdown. -/
theorem shut_move {s : State α} (h : Shut s) {t : Tid} {q : WPc α} (ht : s.w t ≠ .exited) (s' : State α)
    (hs : s'.workers = s.workers ∧ s'.w = set s.w t q ∧ s'.sh = s.sh ∧ s'.tq.closed = s.tq.closed)
    (hf : s.sh = .finished → s.w t = .loop ∨ s.w t = .exited → q = .loop ∨ q = .exited)
    (hm : s.sh = .finished → t ∈ s.workers) : Shut s' := by
  obtain ⟨e1, e2, e3, e4⟩ := hs
  refine ⟨by rw [e3, e4]; exact h.closed, ?_, ?_⟩
  · intro v i hv j n hj hn
    rw [e3] at hv; rw [e1] at hn
    have := h.joining v i hv j n hj hn
    rw [e2, set_other (fun e => ht (by rw [← e]; exact this))]; exact this
  · intro hfin n hn
    rw [e3] at hfin; rw [e1] at hn
    rw [e2]
    by_cases hv : n = t
    · subst hv; rw [set_self]; exact hf hfin (h.finished hfin n hn)
    · rw [set_other hv]; exact h.finished hfin n hn

theorem shut_new {s : State α} (h : Shut s) {n : Tid} (hw : s.w n = .notWorker)
    (hm : n ∉ s.workers) (hj : ∀ t i, s.sh = .joining t i → i ≤ s.workers.length) (s' : State α)
    (hs : s'.workers = s.workers ++ [n] ∧ s'.w = set s.w n .loop ∧ s'.sh = s.sh ∧ s'.tq.closed = s.tq.closed) :
    Shut s' := by
  obtain ⟨e1, e2, e3, e4⟩ := hs
  refine ⟨by rw [e3, e4]; exact h.closed, ?_, ?_⟩
  · intro v i hv j m hji hn
    rw [e3] at hv; rw [e1] at hn
    have hl := hj v i hv
    rw [List.getElem?_append_left (by omega)] at hn
    have := h.joining v i hv j m hji hn
    have hne : m ≠ n := fun e => by subst e; rw [hw] at this; cases this
    rw [e2, set_other hne]; exact this
  · intro hfin m hmm
    rw [e3] at hfin; rw [e1] at hmm; rw [e2]
    by_cases hv : m = n
    · subst hv; simp
    · rw [set_other hv]
      exact h.finished hfin m (by simpa [hv] using hmm)

/-- The join index never runs past the pool. -/
def JoinIdx (s : State α) : Prop := ∀ t i, s.sh = .joining t i → i ≤ s.workers.length

theorem shut_step {k : Kind α} {s s' : State α} {a : Act α} (hi : Inv s) (h : Shut s ∧ JoinIdx s)
    (hs : step k s a = some s') : Shut s' ∧ JoinIdx s' := by
  obtain ⟨h, hj⟩ := h
  have triv : ∀ s' : State α, s'.workers = s.workers ∧ s'.w = s.w ∧ s'.sh = s.sh ∧
      s'.tq.closed = s.tq.closed → Shut s' ∧ JoinIdx s' := by
    rintro s' ⟨e1, e2, e3, e4⟩
    refine ⟨⟨?_, ?_, ?_⟩, ?_⟩
    · rw [e3, e4]; exact h.closed
    · rw [e1, e2, e3]; exact h.joining
    · rw [e1, e2, e3]; exact h.finished
    · unfold JoinIdx; rw [e1, e3]; exact hj
  cases a <;> simp only [step] at hs
  case setMax t n =>
    split at hs
    · cases hs
    · cases hs; exact triv _ ⟨rfl, rfl, rfl, rfl⟩
  case ctorLaunch n ok =>
    split at hs
    · cases hs
    · split at hs
      · cases hs
      · next hc =>
        simp only [not_or, Decidable.not_not] at hc
        split at hs
        · cases hs
          refine ⟨shut_new h hc.1 (fun hm => (hi.mem n).1 hm hc.1) hj _ ⟨rfl, rfl, rfl, rfl⟩, ?_⟩
          intro t i hti
          have := hj t i hti
          show i ≤ (s.workers ++ [n]).length
          simp; omega
        · cases hs; exact triv _ ⟨rfl, rfl, rfl, rfl⟩
  case emplace t n ok =>
    split at hs
    · split at hs
      · cases hs
      · next hc =>
        simp only [not_or, Decidable.not_not] at hc
        split at hs
        · cases hs
          refine ⟨shut_new h hc.1 (fun hm => (hi.mem n).1 hm hc.1) hj _ ⟨rfl, rfl, rfl, rfl⟩, ?_⟩
          intro t i hti
          have := hj t i hti
          show i ≤ (s.workers ++ [n]).length
          simp; omega
        · cases hs; exact triv _ ⟨rfl, rfl, rfl, rfl⟩
    · cases hs
  case push t =>
    split at hs
    · simp only [Option.map_eq_some_iff] at hs
      obtain ⟨q', hq, rfl⟩ := hs
      exact triv _ ⟨rfl, rfl, rfl, (push_effect hq).1⟩
    · cases hs
  case doPush t wk =>
    split at hs
    · cases hs
    · simp only [Option.map_eq_some_iff] at hs
      obtain ⟨q', hq, rfl⟩ := hs
      exact triv _ ⟨rfl, rfl, rfl, (doPush_effect hq).1⟩
  case wait t qa =>
    split at hs
    · cases hs
    · next hc =>
      simp only [not_or, Decidable.not_not] at hc
      simp only [Option.map_eq_some_iff] at hs
      obtain ⟨q', hq, rfl⟩ := hs
      obtain ⟨ec, _, _, e⟩ := wait_effect hc.2 hq
      refine ⟨shut_move h (t := t) (by simp [hc.1]) _ ⟨rfl, rfl, rfl, ec⟩ ?_ ?_, hj⟩
      · intro hf _
        rcases e with e | e | ⟨x, hcl, e⟩
        · left; simp [afterWait, e]
        · right; simp [afterWait, e]
        · exfalso
          have := h.closed (by simp [hf])
          simp [hcl] at this
      · intro _; exact (hi.mem t).2 (by simp [hc.1])
  case shutdown t =>
    split at hs
    · cases hs
    · simp only [Option.map_eq_some_iff] at hs
      obtain ⟨q', hq, rfl⟩ := hs
      exact ⟨⟨fun _ => (close_effect hq).1, by simp, by simp⟩, by intro v i hv; simp at hv⟩
  case notify t =>
    split at hs
    · cases hs
    · next hc =>
      simp only [Option.map_eq_some_iff] at hs
      obtain ⟨q', hq, rfl⟩ := hs
      have hc : s.sh = .closing t := by simpa using hc
      exact ⟨⟨fun _ => (notify_effect hq).1.trans (h.closed (by simp [hc])), by simp, by simp⟩,
        by intro v i hv; simp at hv⟩
  case stopRunning t =>
    split at hs
    · cases hs
    · next hc =>
      cases hs
      have hc : s.sh = .stopping t := by simpa using hc
      exact ⟨⟨fun _ => h.closed (by simp [hc]), by simp, by simp⟩, by intro v i hv; simp at hv⟩
  case clear t =>
    split at hs
    · cases hs
    · next hc =>
      simp only [Option.map_eq_some_iff] at hs
      obtain ⟨q', hq, rfl⟩ := hs
      have hc : s.sh = .clearing t := by simpa using hc
      refine ⟨⟨fun _ => (clear_effect hq).1.trans (h.closed (by simp [hc])), ?_, by simp⟩, ?_⟩
      · intro v i hv j n hji
        simp only [SPc.joining.injEq] at hv
        omega
      · intro v i hv
        simp only [SPc.joining.injEq] at hv
        omega
  case join t =>
    split at hs
    · next v i hsh =>
      split at hs
      · cases hs
      · next hvt =>
        simp only [Decidable.not_not] at hvt
        subst hvt
        split at hs
        · next m hm =>
          split at hs
          · next hex =>
            cases hs
            refine ⟨⟨fun _ => h.closed (by simp [hsh]), ?_, by simp⟩, ?_⟩
            · intro v' i' hv j n hji hn
              simp only [SPc.joining.injEq] at hv
              obtain ⟨-, rfl⟩ := hv
              replace hn : s.workers[j]? = some n := hn
              by_cases hji' : j < i
              · exact h.joining v i hsh j n hji' hn
              · have : j = i := by omega
                subst this
                rw [hm] at hn; cases hn; exact hex
            · intro v' i' hv
              simp only [SPc.joining.injEq] at hv
              obtain ⟨-, rfl⟩ := hv
              have := List.getElem?_eq_some_iff.1 hm
              obtain ⟨hlt, _⟩ := this
              exact hlt
          · cases hs
        · next hnone =>
          cases hs
          refine ⟨⟨fun _ => h.closed (by simp [hsh]), by simp, ?_⟩, by intro v i hv; simp at hv⟩
          intro _ n hn
          right
          obtain ⟨j, hjl, hje⟩ := List.getElem_of_mem hn
          have hge : s.workers.length ≤ i := List.getElem?_eq_none_iff.1 hnone
          replace hjl : j < s.workers.length := hjl
          exact h.joining v i hsh j n (by omega) (List.getElem?_eq_some_iff.2 ⟨hjl, hje⟩)
    · cases hs
  case callRun t x =>
    split at hs
    · cases hs
    · cases hs; exact triv _ ⟨rfl, rfl, rfl, rfl⟩
  case callRunDyn t x =>
    split at hs
    · cases hs
    · split at hs <;> (cases hs; exact triv _ ⟨rfl, rfl, rfl, rfl⟩)
  case checkSize t =>
    split at hs
    · split at hs <;> (cases hs; exact triv _ ⟨rfl, rfl, rfl, rfl⟩)
    · cases hs
  case destroy =>
    split at hs
    · cases hs
    · cases hs; exact triv _ ⟨rfl, rfl, rfl, rfl⟩
  case add t =>
    split at hs
    · next x hx =>
      cases hs
      exact ⟨shut_move h (t := t) (by simp [hx]) _ ⟨rfl, rfl, rfl, rfl⟩ (by simp [hx])
        (fun _ => (hi.mem t).2 (by simp [hx])), hj⟩
    · cases hs
  case «begin» t =>
    split at hs
    · next x hx =>
      cases hs
      exact ⟨shut_move h (t := t) (by simp [hx]) _ ⟨rfl, rfl, rfl, rfl⟩ (by simp [hx])
        (fun _ => (hi.mem t).2 (by simp [hx])), hj⟩
    · cases hs
  case finish t =>
    split at hs
    · next x hx =>
      split at hs
      · cases hs
      · cases hs
        exact ⟨shut_move h (t := t) (by simp [hx]) _ ⟨rfl, rfl, rfl, rfl⟩ (by simp [hx])
          (fun _ => (hi.mem t).2 (by simp [hx])), hj⟩
    · cases hs
  case remove t =>
    split at hs
    · next x hx =>
      cases hs
      exact ⟨shut_move h (t := t) (by simp [hx]) _ ⟨rfl, rfl, rfl, rfl⟩ (by simp [hx])
        (fun _ => (hi.mem t).2 (by simp [hx])), hj⟩
    · cases hs
  case done t =>
    split at hs
    · next x hx =>
      cases hs
      exact ⟨shut_move h (t := t) (by simp [hx]) _ ⟨rfl, rfl, rfl, rfl⟩ (by simp [hx])
        (fun _ => (hi.mem t).2 (by simp [hx])), hj⟩
    · cases hs

theorem shut_run {k : Kind α} {st : Bool} {hw n : Nat} {acts : List (Act α)} {s : State α}
    (h : run k (init α st hw n) acts = some s) : Shut s :=
  (run_inv (fun _ => True) (fun s => Inv s ∧ Shut s ∧ JoinIdx s)
    (fun _ _ _ h _ hs => ⟨inv_step h.1 hs, shut_step h.1 h.2 hs⟩) acts _ s
    ⟨inv_init st hw n, ⟨⟨by simp [init], by simp [init], by simp [init]⟩, by simp [JoinIdx, init]⟩⟩
    (fun _ _ => trivial) h).2.1

/-- Nobody is between the `isClosed` test and the insertion of a push. -/
def NoPushInFlight (s : State α) : Prop := ∀ t xs b, s.tq.pc t ≠ .pushing xs b

/-- Closed, emptied and nobody about to insert: stays so. -/
theorem drained_step {k : Kind α} {s s' : State α} {a : Act α}
    (h : s.tq.closed = true ∧ s.tq.q = [] ∧ NoPushInFlight s) (hs : step k s a = some s') :
    s'.tq.closed = true ∧ s'.tq.q = [] ∧ NoPushInFlight s' := by
  obtain ⟨hc, hq, hp⟩ := h
  rcases step_queue hs with e | ⟨qa, hqa, hqs⟩
  · exact ⟨by rw [e]; exact hc, by rw [e]; exact hq, by unfold NoPushInFlight; rw [e]; exact hp⟩
  · have hst := (Maf.Q.step_cases hqs).2
    have updk : ∀ (t : Tid) (p : Maf.Q.Pc α), (∀ xs b, p ≠ .pushing xs b) → ∀ v xs b,
        Maf.Q.upd s.tq.pc t p v ≠ .pushing xs b := by
      intro t p hp' v xs b h
      by_cases hv : v = t
      · subst hv; rw [show Maf.Q.upd s.tq.pc v p v = p by simp [Maf.Q.upd]] at h; exact absurd h (hp' _ _)
      · rw [Maf.Q.upd_other hv] at h; exact hp _ _ _ h
    unfold NoPushInFlight
    generalize s'.tq = q' at hst
    cases hst
    case accepted hcl _ => simp [hc] at hcl
    case pushAll hpp => exact absurd hpp (hp _ _ _)
    case pushNone hpp _ => exact absurd hpp (hp _ _ _)
    case pushOne hpp _ => exact absurd hpp (hp _ _ _)
    case spurious t timed hpp =>
      simp only [Maf.Q.wakeOne, hpp]
      exact ⟨hc, hq, updk _ _ (by simp)⟩
    case notifyAll t hpp =>
      refine ⟨hc, hq, ?_⟩
      intro v xs b hv
      rw [Maf.Q.wakeAll_pc] at hv
      have hne := updk t .idle (by simp) v
      revert hv hne
      show Maf.Q.wokenPc (Maf.Q.upd s.tq.pc t .idle v) = _ → _
      intro hv hne
      revert hv
      cases hh : Maf.Q.upd s.tq.pc t .idle v <;> simp [Maf.Q.wokenPc]
      exact absurd hh (hne _ _)
    case reOpen t _ => exact absurd rfl (hqa t)
    case finishGot hcl _ _ => simp [hc] at hcl
    case tryGot hcl _ _ => simp [hc] at hcl
    all_goals first
      | exact ⟨hc, hq, updk _ _ (by simp)⟩
      | exact ⟨hc, hq, hp⟩
      | exact ⟨rfl, hq, updk _ _ (by simp)⟩
      | exact ⟨hc, rfl, hp⟩

/-- When shutdown has returned, and no submission was overlapping its emptying of the queue,
every task that entered the pool was finished exactly once: after being run once, or without
being run; nothing is left. -/
theorem shutdown_finishes_all_partial (k : Kind α) (st : Bool) (hw n : Nat) (pre post : List (Act α)) (t : Tid)
    (s0 s : State α) (h0 : run k (init α st hw n) pre = some s0) (hp : NoPushInFlight s0)
    (h : run k (init α st hw n) (pre ++ .clear t :: post) = some s) (hfin : s.sh = .finished) :
    (entries s.tq.log).Perm (doneRunL s.log ++ doneQueuedL s.log) ∧ (ranL s.log).Perm (doneRunL s.log) ∧
      s.tq.q = [] := by
  have hc := tasks_conserved k st hw n _ s h
  have hr := ran_then_done k st hw n _ s h
  have hsh := shut_run h
  have hz : ∀ f : WPc α → List α, f .loop = [] → f .exited = [] → held f s = [] := by
    intro f h1 h2
    apply List.flatMap_eq_nil_iff.2
    intro v hv
    rcases hsh.finished hfin v hv with e | e <;> rw [e]
    · exact h1
    · exact h2
  rw [hz _ rfl rfl] at hc hr
  have hq : s.tq.q = [] := by
    rw [run_append, h0] at h
    simp only [Option.bind_some, run] at h
    cases hs1 : step k s0 (.clear t) with
    | none => simp [hs1] at h
    | some s1 =>
      simp only [hs1, Option.bind_some] at h
      have hd : s1.tq.closed = true ∧ s1.tq.q = [] ∧ NoPushInFlight s1 := by
        have hs0 := shut_run h0
        simp only [step] at hs1
        split at hs1
        · cases hs1
        · next hcl =>
          simp only [Option.map_eq_some_iff] at hs1
          obtain ⟨q', hq, rfl⟩ := hs1
          have hcl : s0.sh = .clearing t := by simpa using hcl
          obtain ⟨e1, e2, e3, _⟩ := clear_effect hq
          exact ⟨e1.trans (hs0.closed (by simp [hcl])), e2, by unfold NoPushInFlight; rw [e3]; exact hp⟩
      exact (run_inv (fun _ => True) (fun s => s.tq.closed = true ∧ s.tq.q = [] ∧ NoPushInFlight s)
        (fun _ _ _ h _ hs => drained_step h hs) post s1 s hd (fun _ _ => trivial) h).2.1
  rw [hq] at hc
  simp only [List.append_nil] at hc hr
  exact ⟨hc.trans (hr.append_right _), hr, hq⟩

/-- Finding: a task whose submission overlaps the shutdown can be lost. Thread 1 passes the
`isClosed` test, thread 0 shuts the (one-thread) pool down, thread 1 inserts: shutdown has
finished, the task is neither run nor finished, and stays queued for ever. -/
def latePush : List (Act Nat) :=
  [.ctorLaunch 7 true, .callRun 1 42, .push 1,
   .shutdown 0, .notify 0, .stopRunning 0, .clear 0,
   .wait 7 (.callWait 7 false), .wait 7 (.evalEmpty 7), .wait 7 (.evalClosed 7), .wait 7 (.finish 7 0),
   .join 0, .join 0, .doPush 1 none]

theorem late_push_lost : ∃ s, run (Maf.Q.fifo Nat) (init Nat true 4 1) latePush = some s ∧
    s.sh = .finished ∧ entries s.tq.log = [42] ∧ s.log = [] ∧ s.tq.q = [42] :=
  ⟨_, rfl, by decide, by decide, by decide, by decide⟩

/-! ### C46: the thread budget -/

theorem step_max {k : Kind α} {s s' : State α} {a : Act α} (ha : ∀ t n, a ≠ .setMax t n) (hs : step k s a = some s') : s'.max = s.max := by
  cases a <;> (try exact absurd rfl (ha _ _)) <;> simp only [step] at hs <;> (repeat' split at hs) <;> first
    | (cases hs; done)
    | (cases hs; rfl)
    | (simp only [Option.map_eq_some_iff] at hs
       obtain ⟨q', hq, rfl⟩ := hs
       rfl)

/-- No call of the dynamic pool's `run` and `setMaxThreadCount`. -/
def NotDyn : Act α → Prop
  | .callRunDyn _ _ => False
  | .setMax _ _ => False
  | _ => True

/-- A fixed-size pool: nobody launches a thread except the constructor. -/
structure Fixed (s : State α) : Prop where
  size : s.workers.length + s.ctor ≤ s.max
  users : ∀ t x, s.u t ≠ .tryLaunch x ∧ s.u t ≠ .emplace x
  sh : s.sh ≠ .notCalled → s.ctor = 0
  joining : ∀ t i, s.sh = .joining t i → s.joined = s.workers.take i
  finished : s.sh = .finished → s.joined = s.workers
  destroyed : s.destroyed ≠ some false
  max : 0 < s.ctor → s.workers.length < s.max
  early : (∀ t i, s.sh ≠ .joining t i) → s.sh ≠ .finished → s.joined = []

theorem fixed_step {k : Kind α} {s s' : State α} {a : Act α} (h : Fixed s) (ha : NotDyn a)
    (hs : step k s a = some s') : Fixed s' := by
  have useru : ∀ (t : Tid) (p : UPc α), (∀ x, p ≠ .tryLaunch x ∧ p ≠ .emplace x) → ∀ v x,
      set s.u t p v ≠ .tryLaunch x ∧ set s.u t p v ≠ .emplace x := by
    intro t p hp v x
    by_cases hv : v = t
    · subst hv; simpa using hp x
    · rw [set_other hv]; exact h.users v x
  have triv : ∀ s' : State α, s'.workers = s.workers ∧ s'.ctor = s.ctor ∧ s'.sh = s.sh ∧ s'.joined = s.joined ∧
      s'.destroyed = s.destroyed ∧ s'.max = s.max → (∀ t x, s'.u t ≠ .tryLaunch x ∧ s'.u t ≠ .emplace x) →
      Fixed s' := by
    rintro s' ⟨e1, e2, e3, e4, e5, e6⟩ hu
    exact ⟨by rw [e1, e2, e6]; exact h.size, hu, by rw [e2, e3]; exact h.sh, by rw [e1, e3, e4]; exact h.joining,
      by rw [e1, e3, e4]; exact h.finished, by rw [e5]; exact h.destroyed, by rw [e1, e2, e6]; exact h.max,
      by rw [e3, e4]; exact h.early⟩
  cases a <;> simp only [step] at hs
  case callRunDyn => exact ha.elim
  case setMax => exact ha.elim
  case ctorLaunch n ok =>
    split at hs
    · cases hs
    · next c hc =>
      have hsz := h.size
      have hnc : s.sh = .notCalled := Decidable.byContradiction fun hne => by
        have := h.sh hne; omega
      split at hs
      · cases hs
      · split at hs
        · cases hs
          refine ⟨?_, h.users, by simp [hnc], by simp [hnc], by simp [hnc], h.destroyed, ?_,
            fun _ _ => h.early (by simp [hnc]) (by simp [hnc])⟩
          · show (s.workers ++ [n]).length + c ≤ s.max
            simp; omega
          · show 0 < c → (s.workers ++ [n]).length < s.max
            simp; omega
        · cases hs
          refine ⟨?_, h.users, by simp [hnc], by simp [hnc], by simp [hnc], h.destroyed, ?_,
            fun _ _ => h.early (by simp [hnc]) (by simp [hnc])⟩
          · show s.workers.length + c ≤ s.max
            omega
          · show 0 < c → s.workers.length < s.max
            omega
  case callRun t x =>
    split at hs
    · cases hs
    · cases hs; exact triv _ ⟨rfl, rfl, rfl, rfl, rfl, rfl⟩ (useru _ _ (by simp))
  case checkSize t =>
    split at hs
    · next x hx => exact absurd hx (h.users t x).1
    · cases hs
  case emplace t n ok =>
    split at hs
    · next x hx => exact absurd hx (h.users t x).2
    · cases hs
  case push t =>
    split at hs
    · simp only [Option.map_eq_some_iff] at hs
      obtain ⟨q', hq, rfl⟩ := hs
      exact triv _ ⟨rfl, rfl, rfl, rfl, rfl, rfl⟩ (useru _ _ (by simp))
    · cases hs
  case doPush t wk =>
    split at hs
    · cases hs
    · simp only [Option.map_eq_some_iff] at hs
      obtain ⟨q', hq, rfl⟩ := hs
      exact triv _ ⟨rfl, rfl, rfl, rfl, rfl, rfl⟩ h.users
  case wait t qa =>
    split at hs
    · cases hs
    · simp only [Option.map_eq_some_iff] at hs
      obtain ⟨q', hq, rfl⟩ := hs
      exact triv _ ⟨rfl, rfl, rfl, rfl, rfl, rfl⟩ h.users
  case shutdown t =>
    split at hs
    · cases hs
    · next hc =>
      simp only [not_or, Decidable.not_not] at hc
      simp only [Option.map_eq_some_iff] at hs
      obtain ⟨q', hq, rfl⟩ := hs
      exact ⟨h.size, h.users, fun _ => hc.2.2.2, by simp, by simp, h.destroyed, h.max,
        fun _ _ => h.early (by simp [hc.1]) (by simp [hc.1])⟩
  case notify t =>
    split at hs
    · cases hs
    · next hc =>
      simp only [Option.map_eq_some_iff] at hs
      obtain ⟨q', hq, rfl⟩ := hs
      have hc : s.sh = .closing t := by simpa using hc
      exact ⟨h.size, h.users, fun _ => h.sh (by simp [hc]), by simp, by simp, h.destroyed, h.max,
        fun _ _ => h.early (by simp [hc]) (by simp [hc])⟩
  case stopRunning t =>
    split at hs
    · cases hs
    · next hc =>
      cases hs
      have hc : s.sh = .stopping t := by simpa using hc
      exact ⟨h.size, h.users, fun _ => h.sh (by simp [hc]), by simp, by simp, h.destroyed, h.max,
        fun _ _ => h.early (by simp [hc]) (by simp [hc])⟩
  case clear t =>
    split at hs
    · cases hs
    · next hc =>
      simp only [Option.map_eq_some_iff] at hs
      obtain ⟨q', hq, rfl⟩ := hs
      have hc : s.sh = .clearing t := by simpa using hc
      refine ⟨h.size, h.users, fun _ => h.sh (by simp [hc]), ?_, by simp, h.destroyed, h.max, ?_⟩
      · intro v i hv
        simp only [SPc.joining.injEq] at hv
        obtain ⟨-, rfl⟩ := hv
        exact h.early (by simp [hc]) (by simp [hc])
      · intro hne; exact absurd rfl (hne t 0)
  case join t =>
    split at hs
    · next v i hsh =>
      split at hs
      · cases hs
      · next hvt =>
        simp only [Decidable.not_not] at hvt
        subst hvt
        split at hs
        · next m hm =>
          split at hs
          · next hex =>
            cases hs
            refine ⟨h.size, h.users, fun _ => h.sh (by simp [hsh]), ?_, by simp, h.destroyed, h.max, fun hne => absurd rfl (hne _ _)⟩
            intro v' i' hv
            simp only [SPc.joining.injEq] at hv
            obtain ⟨-, rfl⟩ := hv
            show s.joined ++ [m] = s.workers.take (i + 1)
            rw [h.joining v i hsh, List.take_add_one, hm]; rfl
          · cases hs
        · next hnone =>
          cases hs
          refine ⟨h.size, h.users, fun _ => h.sh (by simp [hsh]), by simp, ?_, h.destroyed, h.max, fun _ hne => absurd rfl hne⟩
          intro _
          show s.joined = s.workers
          rw [h.joining v i hsh]
          exact List.take_of_length_le (List.getElem?_eq_none_iff.1 hnone)
    · cases hs
  case destroy =>
    split at hs
    · cases hs
    · next hc =>
      simp only [not_or, Decidable.not_not] at hc
      cases hs
      refine ⟨h.size, h.users, h.sh, h.joining, h.finished, ?_, h.max, h.early⟩
      rw [h.finished hc.1]
      simp
  case finish t =>
    split at hs
    · split at hs
      · cases hs
      · cases hs; exact triv _ ⟨rfl, rfl, rfl, rfl, rfl, rfl⟩ h.users
    · cases hs
  all_goals
    split at hs
    · cases hs; exact triv _ ⟨rfl, rfl, rfl, rfl, rfl, rfl⟩ h.users
    · cases hs

theorem fixed_run {k : Kind α} {hw n : Nat} {acts : List (Act α)} {s : State α}
    (hd : ∀ a ∈ acts, NotDyn a) (h : run k (init α true hw n) acts = some s) :
    Fixed s ∧ s.max = maxCount hw n := by
  refine run_inv NotDyn (fun s => Fixed s ∧ s.max = maxCount hw n) ?_ acts _ s ⟨?_, rfl⟩ hd h
  · intro s a s' ⟨hf, hm⟩ ha hs
    refine ⟨fixed_step hf ha hs, ?_⟩
    rw [← hm]; exact step_max (by rintro t n rfl; exact ha) hs
  · exact ⟨by simp [init], by simp [init], by simp [init], by simp [init], by simp [init], by simp [init],
      by simp [init], by simp [init]⟩

/-- A fixed-size pool never has more threads than it was built for. -/
theorem fixed_pool_size (k : Kind α) (hw n : Nat) (acts : List (Act α)) (s : State α)
    (hd : ∀ a ∈ acts, NotDyn a) (h : run k (init α true hw n) acts = some s) :
    s.workers.length ≤ if n ≠ 0 then n else hw := by
  obtain ⟨hf, hm⟩ := fixed_run hd h
  have := hf.size
  rw [hm] at this
  unfold maxCount at this
  omega

/-- The position of a thread inside the launching part of the dynamic pool's `run`. -/
def launching : UPc α → Bool
  | .tryLaunch _ => true
  | .emplace _ => true
  | _ => false

/-- At most one thread at a time is in the launching part of `run`, throughout a run. -/
def SerialLaunch (k : Kind α) (s : State α) : List (Act α) → Prop
  | [] => True
  | a :: as =>
    (∀ t v, launching (s.u t) = true → launching (s.u v) = true → t = v) ∧
      ∀ s', step k s a = some s' → SerialLaunch k s' as

/-- The pool has room up to `M`. -/
structure Room (M : Nat) (s : State α) : Prop where
  size : s.workers.length ≤ M
  room : ∀ t x, s.u t = .emplace x → s.workers.length < M
  max : s.max ≤ M
  ctor : s.ctor = 0

theorem Room.mono {M M' : Nat} {s : State α} (h : Room M s) (hm : M ≤ M') : Room M' s :=
  ⟨Nat.le_trans h.size hm, fun t x hx => Nat.lt_of_lt_of_le (h.room t x hx) hm, Nat.le_trans h.max hm, h.ctor⟩

theorem room_step {k : Kind α} {s s' : State α} {a : Act α} {M : Nat} (h : Room M s)
    (hl : ∀ t v, launching (s.u t) = true → launching (s.u v) = true → t = v)
    (hs : step k s a = some s') (hM : s'.max ≤ M) : Room M s' := by
  have useru : ∀ (t : Tid) (p : UPc α), (∀ x, p ≠ .emplace x) → ∀ v x,
      set s.u t p v = .emplace x → s.workers.length < M := by
    intro t p hp v x hv
    by_cases hvt : v = t
    · subst hvt; rw [set_self] at hv; exact absurd hv (hp x)
    · rw [set_other hvt] at hv; exact h.room v x hv
  have triv : s'.workers = s.workers ∧ s'.ctor = s.ctor →
      (∀ t x, s'.u t = .emplace x → s.workers.length < M) → Room M s' := by
    rintro ⟨e1, e3⟩ hu
    exact ⟨by rw [e1]; exact h.size, by rw [e1]; exact hu, hM, by rw [e3]; exact h.ctor⟩
  cases a <;> simp only [step] at hs
  case ctorLaunch n ok => simp [h.ctor] at hs
  case callRun t x =>
    split at hs
    · cases hs
    · cases hs; exact triv ⟨rfl, rfl⟩ (useru _ _ (by simp))
  case callRunDyn t x =>
    split at hs
    · cases hs
    · split at hs <;> (cases hs; exact triv ⟨rfl, rfl⟩ (useru _ _ (by simp)))
  case checkSize t =>
    split at hs
    · split at hs
      · next hlt => cases hs; exact triv ⟨rfl, rfl⟩ (fun _ _ _ => Nat.lt_of_lt_of_le hlt h.max)
      · cases hs; exact triv ⟨rfl, rfl⟩ (useru _ _ (by simp))
    · cases hs
  case emplace t n ok =>
    split at hs
    · next x hx =>
      split at hs
      · cases hs
      · split at hs
        · cases hs
          have hr := h.room t x hx
          refine ⟨?_, ?_, hM, h.ctor⟩
          · show (s.workers ++ [n]).length ≤ M
            simp; omega
          · intro v y hv
            exfalso
            replace hv : set s.u t (.toPush x) v = .emplace y := hv
            by_cases hvt : v = t
            · subst hvt; simp at hv
            · rw [set_other hvt] at hv
              exact hvt (hl v t (by simp [launching, hv]) (by simp [launching, hx]))
        · cases hs; exact triv ⟨rfl, rfl⟩ (useru _ _ (by simp))
    · cases hs
  case push t =>
    split at hs
    · simp only [Option.map_eq_some_iff] at hs
      obtain ⟨q', hq, rfl⟩ := hs
      exact triv ⟨rfl, rfl⟩ (useru _ _ (by simp))
    · cases hs
  case join t =>
    split at hs
    · split at hs
      · cases hs
      · split at hs
        · split at hs
          · cases hs; exact triv ⟨rfl, rfl⟩ h.room
          · cases hs
        · cases hs; exact triv ⟨rfl, rfl⟩ h.room
    · cases hs
  case finish t =>
    split at hs
    · split at hs
      · cases hs
      · cases hs; exact triv ⟨rfl, rfl⟩ h.room
    · cases hs
  all_goals
    split at hs
    all_goals first
      | cases hs; done
      | (simp only [Option.map_eq_some_iff] at hs
         obtain ⟨q', hq, rfl⟩ := hs
         exact triv ⟨rfl, rfl⟩ h.room)
      | (cases hs; exact triv ⟨rfl, rfl⟩ h.room)

theorem step_hw {k : Kind α} {s s' : State α} {a : Act α} (hs : step k s a = some s') : s'.hw = s.hw := by
  cases a <;> simp only [step] at hs <;> (repeat' split at hs) <;> first
    | (cases hs; done)
    | (cases hs; rfl)
    | (simp only [Option.map_eq_some_iff] at hs
       obtain ⟨q', hq, rfl⟩ := hs
       rfl)

theorem step_setMax {k : Kind α} {s s' : State α} {t : Tid} {n : Nat} (hs : step k s (.setMax t n) = some s') : s'.max = maxCount s.hw n := by
  simp only [step] at hs
  split at hs <;> cases hs
  rfl

/-- The maxima a dynamic pool is given by a program, the constructor's first (0 means `hw`, the number of processors). -/
def maxima (hw n : Nat) (acts : List (Act α)) : List Nat :=
  (n :: acts.filterMap fun | .setMax _ m => some m | _ => none).map fun m => if m ≠ 0 then m else hw

/-- A dynamic pool whose `run` is not called concurrently never has more threads than the greatest maximum it was given
so far. Missing: concurrent calls (`dynamic_pool_exceeds_max`), and the maximum itself after it was lowered (`lowered_exceeds`). -/
theorem dynamic_pool_size_partial (k : Kind α) (hw n : Nat) (acts : List (Act α)) (s : State α)
    (hser : SerialLaunch k (init α false hw n) acts)
    (h : run k (init α false hw n) acts = some s) : ∃ m ∈ maxima hw n acts, s.workers.length ≤ m := by
  have key : ∀ (acts : List (Act α)) (s0 : State α) (M : Nat), s0.hw = hw → Room M s0 → SerialLaunch k s0 acts →
      run k s0 acts = some s → ∃ m, (m = M ∨ ∃ t c, .setMax t c ∈ acts ∧ m = maxCount hw c) ∧ s.workers.length ≤ m := by
    intro acts
    induction acts with
    | nil => intro s0 M _ h0 _ h; cases h; exact ⟨M, .inl rfl, h0.size⟩
    | cons a as ih =>
      intro s0 M hh h0 hser h
      simp only [run] at h
      cases hs : step k s0 a with
      | none => simp [hs] at h
      | some s1 =>
        simp only [hs, Option.bind_some] at h
        have hh1 : s1.hw = hw := (step_hw hs).trans hh
        by_cases hM : s1.max ≤ M
        · obtain ⟨m, hm, hle⟩ := ih s1 M hh1 (room_step h0 hser.1 hs hM) (hser.2 s1 hs) h
          refine ⟨m, hm.imp id ?_, hle⟩
          rintro ⟨t, c, hc, rfl⟩
          exact ⟨t, c, .tail _ hc, rfl⟩
        · have h1 := room_step (h0.mono (show M ≤ s1.max by omega)) hser.1 hs (Nat.le_refl _)
          obtain ⟨m, hm, hle⟩ := ih s1 s1.max hh1 h1 (hser.2 s1 hs) h
          refine ⟨m, .inr ?_, hle⟩
          rcases hm with rfl | ⟨t, c, hc, rfl⟩
          · -- only `setMax` raises the maximum
            by_cases ha : ∀ t n, a ≠ .setMax t n
            · have := step_max ha hs
              have := h0.max
              omega
            · simp only [ne_eq, Classical.not_forall, Classical.not_not] at ha
              obtain ⟨t, c, rfl⟩ := ha
              exact ⟨t, c, by simp, by rw [step_setMax hs, hh]⟩
          · exact ⟨t, c, .tail _ hc, rfl⟩
  obtain ⟨m, hm, hle⟩ := key acts (init α false hw n) (maxCount hw n) rfl ⟨by simp [init], by simp [init], by simp [init], by simp [init]⟩ hser h
  refine ⟨m, List.mem_map.2 ?_, hle⟩
  rcases hm with rfl | ⟨t, c, hc, rfl⟩
  · exact ⟨n, by simp, by simp [maxCount]⟩
  · exact ⟨c, .tail _ (List.mem_filterMap.2 ⟨_, hc, rfl⟩), by simp [maxCount]⟩

/-- No `setMaxThreadCount` lowers the maximum. -/
def Raised (k : Kind α) (s : State α) : List (Act α) → Prop
  | [] => True
  | a :: as => ∀ s', step k s a = some s' → s.max ≤ s'.max ∧ Raised k s' as

/-- As long as the maximum is only raised, the pool never has more threads than the maximum is at the moment. -/
theorem dynamic_pool_raised_partial (k : Kind α) (hw n : Nat) (acts : List (Act α)) (s : State α)
    (hser : SerialLaunch k (init α false hw n) acts) (hup : Raised k (init α false hw n) acts)
    (h : run k (init α false hw n) acts = some s) : s.workers.length ≤ s.max := by
  have key : ∀ (acts : List (Act α)) (s0 : State α), Room s0.max s0 → SerialLaunch k s0 acts → Raised k s0 acts →
      run k s0 acts = some s → s.workers.length ≤ s.max := by
    intro acts
    induction acts with
    | nil => intro s0 h0 _ _ h; cases h; exact h0.size
    | cons a as ih =>
      intro s0 h0 hser hup h
      simp only [run] at h
      cases hs : step k s0 a with
      | none => simp [hs] at h
      | some s1 =>
        simp only [hs, Option.bind_some] at h
        exact ih s1 (room_step (h0.mono (hup s1 hs).1) hser.1 hs (Nat.le_refl _)) (hser.2 s1 hs) (hup s1 hs).2 h
  exact key acts _ ⟨by simp [init], by simp [init], Nat.le_refl _, by simp [init]⟩ hser hup h

/-- Finding: lowering the maximum ends no thread, so the pool has more than its maximum. -/
theorem lowered_exceeds : ∃ s, run (Maf.Q.fifo Nat) (init Nat false 4 2)
      [.callRunDyn 0 10, .checkSize 0, .emplace 0 8 true, .push 0, .doPush 0 none, .callRunDyn 0 11, .checkSize 0, .emplace 0 9 true, .push 0, .doPush 0 none, .setMax 0 1] = some s ∧
    s.workers.length = 2 ∧ s.max = 1 :=
  ⟨_, rfl, by decide, by decide⟩

/-- The hypotheses are met: the maximum is raised from 1 to the number of processors, and a second thread is launched. -/
example : ∃ s, run (Maf.Q.fifo Nat) (init Nat false 4 1)
      [.callRunDyn 0 10, .checkSize 0, .emplace 0 8 true, .push 0, .doPush 0 none, .setMax 0 0, .callRunDyn 0 11, .checkSize 0, .emplace 0 9 true, .push 0, .doPush 0 none] = some s ∧
    s.workers.length = 2 ∧ s.max = 4 :=
  ⟨_, rfl, by decide, by decide⟩

/-- Finding: two concurrent first submissions to a dynamic pool with a maximum of one
thread launch two. -/
theorem dynamic_pool_exceeds_max : ∃ acts s, run (Maf.Q.fifo Nat) (init Nat false 4 1) acts = some s ∧
    s.workers.length = 2 ∧ s.max = 1 :=
  ⟨[.callRunDyn 0 10, .callRunDyn 1 11, .checkSize 0, .checkSize 1, .emplace 0 8 true, .emplace 1 9 true],
    _, rfl, by decide, by decide⟩

/-! ### C55: no thread is left behind -/

/-- A thread that was joined has ended. -/
theorem joined_ended {k : Kind α} {st : Bool} {hw n : Nat} {acts : List (Act α)} {s : State α}
    (h : run k (init α st hw n) acts = some s) : ∀ t ∈ s.joined, s.w t = .exited := by
  refine run_inv (fun _ => True) (fun s => ∀ t ∈ s.joined, s.w t = .exited) ?_ acts _ s (by simp [init]) (fun _ _ => trivial) h
  intro s a s' hj _ hs v hv
  have other : ∀ t q, s.w t ≠ .exited → s'.joined = s.joined → s'.w = set s.w t q → s'.w v = .exited := by
    intro t q ht e1 e2
    have := hj v (e1 ▸ hv)
    have hne : v ≠ t := fun e => ht (by rw [← e]; exact this)
    rw [e2, set_other hne, this]
  have same : s'.joined = s.joined → s'.w = s.w → s'.w v = .exited := fun e1 e2 => by rw [e2]; exact hj v (e1 ▸ hv)
  cases a <;> simp only [step] at hs <;> (repeat' split at hs) <;> first
    | (cases hs; done)
    | (cases hs; exact same rfl rfl)
    | (simp only [Option.map_eq_some_iff] at hs
       obtain ⟨q', hq, rfl⟩ := hs
       exact same rfl rfl)
    | (cases hs; exact other _ _ (by grind) rfl rfl)
    | (simp only [Option.map_eq_some_iff] at hs
       obtain ⟨q', hq, rfl⟩ := hs
       exact other _ _ (by grind) rfl rfl)
    | (cases hs
       simp only [List.mem_append, List.mem_singleton] at hv
       rcases hv with hv | rfl
       · exact hj v hv
       · assumption)

/-- Destroying a fixed-size pool never terminates the program: all its threads have ended and were joined. -/
theorem fixed_pool_destroyed_cleanly_partial (k : Kind α) (hw n : Nat) (acts : List (Act α)) (s : State α)
    (hd : ∀ a ∈ acts, NotDyn a) (h : run k (init α true hw n) acts = some s) :
    s.destroyed ≠ some false ∧ (s.sh = .finished → s.joined = s.workers ∧ ∀ t ∈ s.workers, s.w t = .exited) :=
  ⟨(fixed_run hd h).1.destroyed, fun hf => ⟨(fixed_run hd h).1.finished hf, fun t ht => joined_ended h t ((fixed_run hd h).1.finished hf ▸ ht)⟩⟩

/-- Finding: a dynamic pool that gets a task after its shutdown launches a thread which
nobody joins; destroying the pool calls `std::terminate`. -/
theorem dynamic_pool_terminates : ∃ acts s, run (Maf.Q.fifo Nat) (init Nat false 4 1) acts = some s ∧
    s.destroyed = some false :=
  ⟨[.shutdown 0, .notify 0, .stopRunning 0, .clear 0, .join 0,
    .callRunDyn 0 10, .checkSize 0, .emplace 0 8 true, .push 0, .destroy], _, rfl, by decide⟩

/-! ### C47 -/

/-- When a worker of a priority pool takes a task, no queued task is more urgent. -/
theorem most_urgent_first (lt : α → α → Bool) (s s' : State α) (a : Act α)
    (hs : step (Maf.Q.prio lt) s a = some s') (t : Tid) (x : α) (htook : s'.log = s.log ++ [.took t x]) :
    x ∈ s.tq.q ∧ ∀ y ∈ s.tq.q, lt x y = false := by
  have no : ∀ e : List (PEv α), s.log ++ e = s.log ++ [PEv.took t x] → e = [PEv.took t x] := by
    intro e h; exact List.append_cancel_left h
  have no0 : s.log = s.log ++ [PEv.took t x] → False := by
    intro h
    have := congrArg List.length h
    simp at this
  have nomap : ∀ (f : α → PEv α) (xs : List α), (∀ y, f y ≠ .took t x) → xs.map f ≠ [PEv.took t x] := by
    intro f xs hf hxs
    cases xs with
    | nil => simp at hxs
    | cons y ys => simp at hxs; exact hf y hxs.1
  cases a <;> simp only [step] at hs
  case wait v qa =>
    split at hs
    · cases hs
    · next hc =>
      simp only [not_or, Decidable.not_not] at hc
      simp only [Option.map_eq_some_iff] at hs
      obtain ⟨q', hq, rfl⟩ := hs
      have hm := no _ htook
      obtain ⟨_, _, _, e⟩ := wait_effect hc.2 hq
      rcases e with e | e | ⟨y, _, e⟩
      · simp [afterWait, e] at hm
      · simp [afterWait, e] at hm
      · simp [afterWait, e] at hm
        obtain ⟨rfl, rfl⟩ := hm
        exact Maf.Q.priority_served_first lt s.tq q' qa hq _ _ e
  case push t =>
    split at hs
    · simp only [Option.map_eq_some_iff] at hs
      obtain ⟨q', hq, rfl⟩ := hs
      exact (no0 htook).elim
    · cases hs
  all_goals
    repeat' split at hs
    all_goals first
      | (cases hs; done)
      | (cases hs; exact (no0 htook).elim)
      | (cases hs; have := no _ htook; simp at this; done)
      | (cases hs; exact absurd (no _ htook) (nomap _ _ (by simp)))
      | (simp only [Option.map_eq_some_iff] at hs
         obtain ⟨q', hq, rfl⟩ := hs
         first | exact (no0 htook).elim | exact absurd (no _ htook) (nomap _ _ (by simp)))

/-! ### C56: shutdown asks the running tasks to stop -/

/-- The only step that asks tasks to stop asks exactly those being run at that moment, each
once: those which a worker has listed and not yet unlisted. A task asked to stop has not
been reported done. -/
theorem stop_exactly_running (k : Kind α) (st : Bool) (hw n : Nat) (acts : List (Act α)) (s s' : State α)
    (t : Tid) (h : run k (init α st hw n) acts = some s) (hs : step k s (.stopRunning t) = some s') :
    ∃ xs : List α, s'.log = s.log ++ xs.map .stopped ∧ xs.Perm (held listed s) ∧
      ∀ x, (doneRunL s.log).count x + xs.count x ≤ (tookL s.log).count x := by
  have hi := inv_run h
  simp only [step] at hs
  split at hs
  · cases hs
  · cases hs
    refine ⟨s.runningTasks, rfl, hi.listed, ?_⟩
    intro x
    have h1 := List.perm_iff_count.1 hi.took x
    have h2 := List.perm_iff_count.1 hi.ran x
    have h3 := List.perm_iff_count.1 hi.listed x
    have h4 : (held listed s).count x ≤ (held notYetRun s).count x + (held beingRun s).count x := by
      have : ∀ l : List Tid, (l.flatMap fun t => listed (s.w t)).count x ≤
          (l.flatMap fun t => notYetRun (s.w t)).count x + (l.flatMap fun t => beingRun (s.w t)).count x := by
        intro l
        induction l with
        | nil => simp
        | cons v l ih =>
          simp only [List.flatMap_cons, List.count_append]
          have hv : (listed (s.w v)).count x ≤ (notYetRun (s.w v)).count x + (beingRun (s.w v)).count x := by
            cases s.w v <;> simp [listed, notYetRun, beingRun]
          omega
      exact this s.workers
    simp only [List.count_append] at h1 h2
    omega

/-- Tasks are asked to stop by no other step. -/
theorem stop_only_at_shutdown (k : Kind α) (s s' : State α) (a : Act α) (hs : step k s a = some s')
    (ha : ∀ t, a ≠ .stopRunning t) : stoppedL s'.log = stoppedL s.log := by
  cases a <;> simp only [step] at hs
  case stopRunning t => exact absurd rfl (ha t)
  case wait t qa =>
    split at hs
    · cases hs
    · simp only [Option.map_eq_some_iff] at hs
      obtain ⟨q', hq, rfl⟩ := hs
      show stoppedL (s.log ++ _) = _
      rw [stoppedL_append]
      split <;> simp [stoppedL]
  case push t =>
    split at hs
    · simp only [Option.map_eq_some_iff] at hs
      obtain ⟨q', hq, rfl⟩ := hs
      rfl
    · cases hs
  case clear t =>
    split at hs
    · cases hs
    · simp only [Option.map_eq_some_iff] at hs
      obtain ⟨q', hq, rfl⟩ := hs
      show stoppedL (s.log ++ _) = _
      rw [stoppedL_append, show stoppedL (s.tq.q.map PEv.doneQueued) = [] from
        filterMap_map_none _ _ (fun _ => rfl) _]
      simp
  all_goals
    repeat' split at hs
    all_goals first
      | (cases hs; done)
      | (cases hs; rfl)
      | (cases hs; simp [stoppedL]; done)
      | (simp only [Option.map_eq_some_iff] at hs
         obtain ⟨q', hq, rfl⟩ := hs
         rfl)

/-! ### Non-vacuity -/

/-- One worker; task 5 is run, task 6 is running when the pool is shut down, task 7 still
queued. -/
def demo : List (Act Nat) :=
  [.ctorLaunch 7 true,
   .callRun 1 5, .push 1, .doPush 1 none, .callRun 1 6, .push 1, .doPush 1 none,
   .callRun 2 7, .push 2, .doPush 2 none,
   .wait 7 (.callWait 7 false), .wait 7 (.evalEmpty 7), .wait 7 (.finish 7 0),
   .add 7, .begin 7, .finish 7, .remove 7, .done 7,
   .wait 7 (.callWait 7 false), .wait 7 (.evalEmpty 7), .wait 7 (.finish 7 0), .add 7, .begin 7,
   .shutdown 0, .notify 0, .stopRunning 0]

def demoEnd : List (Act Nat) :=
  [.finish 7, .remove 7, .done 7,
   .wait 7 (.callWait 7 false), .wait 7 (.evalEmpty 7), .wait 7 (.evalClosed 7), .wait 7 (.finish 7 0),
   .join 0, .join 0, .destroy]

example : ∃ s, run (Maf.Q.fifo Nat) (init Nat true 4 1) (demo ++ .clear 0 :: demoEnd) = some s ∧ s.sh = .finished ∧
    entries s.tq.log = [5, 6, 7] ∧ doneRunL s.log = [5, 6] ∧ doneQueuedL s.log = [7] ∧ stoppedL s.log = [6] ∧
    s.destroyed = some true :=
  ⟨_, rfl, by decide, by decide, by decide, by decide, by decide, by decide⟩

/-- The hypotheses of `shutdown_finishes_all_partial` are met by that run. -/
example : ∃ s, run (Maf.Q.fifo Nat) (init Nat true 4 1) demo = some s ∧ NoPushInFlight s ∧
    held listed s = [6] := by
  refine ⟨_, rfl, ?_, by decide⟩
  intro t xs b h
  by_cases h0 : t = 0
  · subst h0; cases h
  by_cases h1 : t = 1
  · subst h1; cases h
  by_cases h2 : t = 2
  · subst h2; cases h
  by_cases h7 : t = 7
  · subst h7; cases h
  simp [Maf.Q.upd, Maf.Q.wakeAll, h0, h1, h2, h7] at h
  cases h

/-- A serial use of a dynamic pool. -/
example : SerialLaunch (Maf.Q.fifo Nat) (init Nat false 4 1)
    [.callRunDyn 0 10, .checkSize 0, .emplace 0 8 true, .push 0, .doPush 0 none] := by
  have one : ∀ (s : State Nat), (∀ t, t ≠ 0 → s.u t = .idle) →
      ∀ t v, launching (s.u t) = true → launching (s.u v) = true → t = v := by
    intro s h t v ht hv
    have ht0 : t = 0 := Decidable.byContradiction fun e => by rw [h t e] at ht; cases ht
    have hv0 : v = 0 := Decidable.byContradiction fun e => by rw [h v e] at hv; cases hv
    rw [ht0, hv0]
  refine ⟨one _ ?_, fun _ hs => ?_⟩
  · intro t ht; rfl
  cases hs
  refine ⟨one _ ?_, fun _ hs => ?_⟩
  · intro t ht; simp [set, ht, init]
  cases hs
  refine ⟨one _ ?_, fun _ hs => ?_⟩
  · intro t ht; simp [set, ht, init]
  cases hs
  refine ⟨one _ ?_, fun _ hs => ?_⟩
  · intro t ht; simp [set, ht, init]
  cases hs
  refine ⟨one _ ?_, fun _ hs => ?_⟩
  · intro t ht; simp [set, ht, init]
  trivial

example : ∃ s s', run (Maf.Q.prio (fun a b : Nat => a < b)) (init Nat true 4 1)
    [.ctorLaunch 7 true, .callRun 1 5, .push 1, .doPush 1 none, .callRun 1 6, .push 1, .doPush 1 none,
     .wait 7 (.callWait 7 false), .wait 7 (.evalEmpty 7)] = some s ∧
    step (Maf.Q.prio (fun a b : Nat => a < b)) s (.wait 7 (.finish 7 1)) = some s' ∧
    s'.log = s.log ++ [.took 7 6] :=
  ⟨_, _, rfl, rfl, by decide⟩

end Maf.Pool
