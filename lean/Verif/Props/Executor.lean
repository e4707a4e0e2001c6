import Verif.Lemmas.ExecutorWill

/-!
C91: what handing a function to an executor promises.

Small specification, over the log of what happened: call `n` hands function `f`
to processor `p` (`asked n k p f`) or to the direct executor (`direct n f`); the
function is run (`ran n f on`, `on` the processor of the running thread); the
call returns (`returned n r`); processors are `stopped`, `reused`, `gone`. `Open
p l`: after `l`, processor `p` exists and the last `stop` is followed by a `reuse`.
-/

namespace Maf.Exe

/-- `p` is stopped: the last of its `stop`s and `reuse`s is a `stop`. -/
def Stopped (p : Nat) (l : List Ev) : Prop := ∃ a b, l = a ++ .stopped p :: b ∧ Ev.reused p ∉ b

/-- `p` exists and is not stopped. -/
def Open (p : Nat) (l : List Ev) : Prop := ¬ Stopped p l ∧ Ev.gone p ∉ l

theorem closedAfter_snoc (p : Nat) (l : List Ev) (e : Ev) (b : Bool) :
    closedAfter p (l ++ [e]) b = if e = .stopped p then true else if e = .reused p then false else closedAfter p l b := by
  rw [closedAfter_append]
  cases e <;> simp [closedAfter]

theorem stopped_snoc (p : Nat) (l : List Ev) (e : Ev) : Stopped p (l ++ [e]) ↔ e = .stopped p ∨ (e ≠ .reused p ∧ Stopped p l) := by
  constructor
  · rintro ⟨a, b, h, hb⟩
    rcases split_new h with ⟨r', h1, rfl⟩ | ⟨l', rfl, h2⟩
    · right
      exact ⟨fun x => hb (by simp [x]), a, r', h1, fun hm => hb (by simp [hm])⟩
    · cases l' with
      | nil => simp at h2; exact .inl h2.1
      | cons x y => simp at h2
  · rintro (rfl | ⟨h, a, b, rfl, hb⟩)
    · exact ⟨l, [], rfl, by simp⟩
    · exact ⟨a, b ++ [e], by simp, by simp [hb]; exact fun x => h x.symm⟩

theorem stopped_iff (p : Nat) (l : List Ev) : Stopped p l ↔ closedAfter p l false = true := by
  refine snoc_induct (motive := fun l => Stopped p l ↔ closedAfter p l false = true) ?_ ?_ l
  · constructor
    · rintro ⟨a, b, h, -⟩; simp at h
    · intro h; cases h
  · intro l e ih
    rw [stopped_snoc, closedAfter_snoc]
    by_cases h1 : e = .stopped p
    · simp [h1]
    · by_cases h2 : e = .reused p
      · simp [h2]
      · simp [h1, h2, ih]

theorem not_stopped_iff (p : Nat) (l : List Ev) : ¬ Stopped p l ↔ closedAfter p l false = false := by
  rw [stopped_iff]; simp

variable {c : Conf} {acts : List Act} {s s' : St} {on : Option Nat} {f : Nat}

/-- **C91.** A function is run at most once for each time it was handed over;
on a thread of the processor it was handed to, which then exists and is not
stopped, or at once by the direct executor. -/
theorem ran_once_there (h : runs c init acts = some s) {l r : List Ev} {n : Nat} (hs : s.log = l ++ .ran n f on :: r) :
    (∀ g o, Ev.ran n g o ∉ l) ∧
    ((∃ k p, Ev.asked n k p f ∈ l ∧ on = some p ∧ Open p l) ∨ Ev.direct n f ∈ l) := by
  have hr := (all_runs all_init h).hist.all l _ r hs
  refine ⟨hr.1, ?_⟩
  rcases hr.2 with ⟨k, p, h1, h2, h3, h4, -⟩ | h1
  · exact .inl ⟨k, p, h1, h2, (not_stopped_iff p l).2 h3, h4⟩
  · exact .inr h1

/-- the events of a call of a processor's executor are not those of a direct one -/
theorem not_both {l : List Ev} (h : Hist (Rule c) l) {n k p f g} (h1 : Ev.asked n k p f ∈ l) (h2 : Ev.direct n g ∈ l) : False := by
  obtain ⟨a, b, hab⟩ := List.append_of_mem h1
  obtain ⟨a', b', hab'⟩ := List.append_of_mem h2
  have r1 := h.all _ _ _ hab
  have r2 := h.all _ _ _ hab'
  rcases places (hab.symm.trans hab') with ⟨-, e, -⟩ | ⟨x, e, -⟩ | ⟨x, e, -⟩
  · cases e
  · exact r2 (.asked n k p f) (by rw [e]; simp) rfl
  · obtain ⟨i, hi⟩ := r1 (.direct n g) (by rw [e]; simp) rfl; cases hi

/-- **C91 (processors' executors only).** If `execute` of an executor of a
processor returns false, the function was not run and never will be. Not so for
the direct executor: `direct_false_though_run`. -/
theorem false_never_partial (h : runs c init acts = some s) {n : Nat} {k : Kind} {p f : Nat} (ha : Ev.asked n k p f ∈ s.log)
    (hr : Ev.returned n .no ∈ s.log) : ∀ g o, Ev.ran n g o ∉ s.log := by
  intro g o hm
  have hh := (all_runs all_init h).hist
  obtain ⟨a, b, hab⟩ := List.append_of_mem hr
  obtain ⟨a', b', hab'⟩ := List.append_of_mem hm
  have r1 := hh.all _ _ _ hab
  have r2 := hh.all _ _ _ hab'
  have hn : Ev.direct n g ∉ a' := fun hd => not_both hh ha (g := g) (by rw [hab']; simp [hd])
  rcases r2.2 with ⟨k', p', h1, -, -, -, h5⟩ | h1
  · rcases places (hab.symm.trans hab') with ⟨-, e, -⟩ | ⟨x, e, -⟩ | ⟨x, e, -⟩
    · cases e
    · exact h5 (by rw [e]; simp)
    · exact r1.2 k' p' g (by rw [e]; simp [h1]) g o (by rw [e]; simp)
  · exact hn h1

/-- **C91.** The direct executor runs the function at once, on the caller's
thread, and says whether it threw. -/
theorem direct_says (h : step c s (.direct on f) = some s') :
    s'.log = s.log ++ [.direct s.next f, .ran s.next f on, .returned s.next (if c.throws f then .no else .yes)] := by
  cases (step_live h).1; rfl

/-- **C91.** What is handed to a running processor is run, or is still in its
queue, or was dropped because the processor was stopped or destroyed
afterwards. -/
theorem served (h : runs c init acts = some s) {l r : List Ev} {n : Nat} {k : Kind} {p f : Nat} (hs : s.log = l ++ .asked n k p f :: r)
    (ho : Open p l) :
    Ev.ran n f (some p) ∈ r ∨ (∃ t ∈ s.queue p, t.call = n ∧ t.fn = some f) ∨ Ev.stopped p ∈ r ∨ Ev.gone p ∈ r :=
  (all_runs all_init h).fate.served l r n k p f hs ((not_stopped_iff p l).1 ho.1) ho.2

/-- ... and a processor that is run empties its queue, oldest first: what is in
the queue of a running processor is run when a thread runs it long enough. -/
theorem runs_next (h : runs c init acts = some s) (hd : s.dead = false) {p : Nat} {t : Task} {rest : List Task} (hq : s.queue p = t :: rest) :
    ∃ s', step c s (.run p) = some s' ∧ s'.queue p = rest ∧ ∀ f, t.fn = some f → Ev.ran t.call f (some p) ∈ s'.log := by
  have hI := (all_runs all_init h).inv
  have hc := (hI.open' p t (by rw [hq]; simp)).1
  refine ⟨runTask c s p t rest, ?_, by simp [runTask, upd], ?_⟩
  · simp [step, hd, live, hc, hq]
  · intro f hf; simp [runTask, St.note, hf, ranEv]

/-- **C91.** What is handed to a processor that is stopped or destroyed is never
run, not even after `reuse`. -/
theorem lost_forever (h : runs c init acts = some s) {l r : List Ev} {n : Nat} {k : Kind} {p f : Nat} (hs : s.log = l ++ .asked n k p f :: r)
    (ho : ¬ Open p l) : ∀ g o, Ev.ran n g o ∉ s.log := by
  refine ((all_runs all_init h).fate.lost l r n k p f hs ?_).1
  by_cases hg : Ev.gone p ∈ l
  · exact .inr hg
  · exact .inl ((stopped_iff p l).1 (Classical.byContradiction fun hn => ho ⟨hn, hg⟩))

/-- **C91.** A call that hands over and waits, on a running processor, does not
return before its function was run, or the processor stopped. -/
theorem waits_for_it (h : runs c init acts = some s) {l m r : List Ev} {n p f : Nat} {res : Ret}
    (hs : s.log = l ++ .asked n .wait p f :: m ++ .returned n res :: r) (ho : Open p l) :
    Ev.ran n f (some p) ∈ m ∨ Ev.stopped p ∈ m :=
  (all_runs all_init h).back.all _ _ _ hs l m p f rfl ((not_stopped_iff p l).1 ho.1) ho.2

/-- **C91.** An exception leaves the loop that runs a processor only because the
function just run threw, and was not handed over by a waiting call; or because a
`will...` function was called again after it had handed over its function. -/
theorem left_because (h : runs c init acts = some s) {l r : List Ev} {p : Nat} (hs : s.log = l ++ .left p :: r) :
    (∃ l' n f k, l = l' ++ [.ran n f (some p)] ∧ Ev.asked n k p f ∈ l' ∧ k ≠ .wait ∧ c.throws f = true) ∨
    ∃ n k, Ev.askedEmpty n k p ∈ l ∧ k ≠ .wait :=
  (all_runs all_init h).hist.all l _ r hs

/-- **C91.** Executors end the process in one case: the default executor, used on
a thread of its processor, with a function that throws. -/
theorem terminates_when {a : Act} {s' : St} (h : step c s a = some s') (hd : s'.dead = true) :
    ∃ p f, a = .exec .dflt p (some p) f ∧ c.throws f = true := by
  obtain ⟨h, h0⟩ := step_live h
  have no : s'.dead = s.dead → False := by intro e; rw [e, h0] at hd; cases hd
  cases a with
  | exec k p on f =>
    cases h
    unfold execute at hd
    cases ha : s.alive p with
    | false => rw [ha] at hd; simp [St.tick, St.ret, St.note, h0] at hd
    | true =>
      rw [ha, if_pos rfl] at hd
      unfold handOver at hd
      rw [outcome_closed (s := s) (s' := s.note _) rfl] at hd
      rcases outcome_cases c s k p on (some f) with ⟨ho, hc⟩ | ⟨ho, hc⟩ | ⟨ho, hc, hon, hk, -⟩ | ⟨ho, hc, hon, hk, hb⟩
      · rw [ho] at hd; simp [finishExec, St.tick, St.ret, St.note, h0] at hd
      · rw [ho] at hd
        by_cases hk : k = .wait <;> simp [finishExec, hk, St.tick, St.ret, St.note, St.push, St.await, h0] at hd
      · rw [ho] at hd; simp [finishExec, St.tick, St.ret, St.note, h0] at hd
      · exact ⟨p, f, by rw [hk, hon], hb⟩
  | direct on f => cases h; exact (no rfl).elim
  | will k p f => cases h; exact (no rfl).elim
  | copy i => obtain ⟨w, -, e⟩ := Option.map_eq_some_iff.1 h; subst e; exact (no rfl).elim
  | call i on =>
    obtain ⟨w, -, e⟩ := Option.map_eq_some_iff.1 h; subst e
    refine (no ?_).elim
    unfold callWill
    cases ha : s.alive w.proc with
    | false => rfl
    | true =>
      rw [if_pos rfl]
      unfold handOver
      rw [outcome_closed (s := s) (s' := { s.note _ with wills := s.wills.set i (empty w) }) rfl]
      cases outcome c s w.kind w.proc on w.exec
      · rfl
      · by_cases hk : w.kind = .wait <;> simp [finishWill, hk, St.tick, St.ret, St.note, St.push, St.await]
      · rfl
      · rfl
  | run p =>
    simp only [live] at h
    cases hc : s.closed p with
    | true => simp [hc] at h
    | false =>
      simp only [hc, Bool.false_eq_true, if_false] at h
      cases hq : s.queue p with
      | nil => rw [hq] at h; cases h
      | cons t rest => rw [hq] at h; cases h; exact (no rfl).elim
  | resume n =>
    obtain ⟨w, -, h2⟩ := Option.bind_eq_some_iff.1 h
    unfold doResume at h2
    cases hany : (s.queue w.2.1).any (fun t => t.call == w.1) with
    | true => simp only [hany, if_true] at h2; cases h2
    | false => simp only [hany, Bool.false_eq_true, if_false, Option.some.injEq] at h2; subst h2; exact (no rfl).elim
  | stop p =>
    cases h
    refine (no ?_).elim
    unfold doStop
    cases s.closed p <;> rfl
  | reuse p => cases h; exact (no rfl).elim
  | gone p =>
    simp only [live] at h
    cases hw : s.waits.any fun w => w.2.1 == p with
    | true => simp [hw] at h
    | false => rw [hw] at h; cases h; exact (no rfl).elim

theorem spent_runs {s s' : St} {acts : List Act} (hA : All c s) (hS : Spent s) (hs : runs c s acts = some s') : Spent s' := by
  induction acts generalizing s with
  | nil => cases hs; exact hS
  | cons a acts ih =>
    obtain ⟨s1, h1, h2⟩ := Option.bind_eq_some_iff.1 hs
    exact ih (all_step hA h1) (spent_step hA.inv hS (step_wcase h1)) h2

/-- **C91.** A `will...` function hands over its function at most once, however
often it is called. -/
theorem will_once (h : runs c init acts = some s) {n m i : Nat} {k k' : Kind} {p p' f f' : Nat}
    (h1 : Ev.called n i ∈ s.log) (h2 : Ev.asked n k p f ∈ s.log) (h3 : Ev.called m i ∈ s.log) (h4 : Ev.asked m k' p' f' ∈ s.log) : n = m :=
  (spent_runs all_init ⟨fun n i h => by simp [init] at h, fun n i k p f h => by simp [init] at h, fun n m i k p f k' p' f' h => by simp [init] at h⟩ h).once n m i k p f k' p' f' h1 h2 h3 h4

/-! ### Concrete runs -/

/-- Function 9 throws. -/
def bad9 : Conf := ⟨fun f => f == 9⟩

def view (s : St) : List Ev := s.log

/-- All three executors, from outside and from inside; each function is run once. -/
example : (runs bad9 init [.exec .async 1 none 5, .exec .wait 1 (some 2) 6, .run 1, .exec .dflt 1 (some 1) 7, .run 1, .resume 1]).map view =
    some [.asked 0 .async 1 5, .returned 0 .yes, .asked 1 .wait 1 6, .ran 0 5 (some 1), .asked 2 .dflt 1 7, .ran 2 7 (some 1),
      .returned 2 .yes, .ran 1 6 (some 1), .returned 1 .yes] := rfl

/-- A refusal: the processor is gone; the waiting executor also refuses when it is stopped. -/
example : (runs bad9 init [.stop 1, .exec .wait 1 none 5, .gone 1, .exec .async 1 none 6]).map view =
    some [.stopped 1, .asked 0 .wait 1 5, .returned 0 .no, .gone 1, .asked 1 .async 1 6, .returned 1 .no] := rfl

/-- A waiting call released by `stop`. -/
example : (runs bad9 init [.exec .wait 1 none 5, .stop 1, .resume 0]).map view =
    some [.asked 0 .wait 1 5, .stopped 1, .returned 0 .yes] := rfl

/-- An exception of a plain task leaves the loop; of a waiting call's task it does not. -/
example : (runs bad9 init [.exec .async 1 none 9, .exec .wait 1 none 9, .run 1, .run 1]).map view =
    some [.asked 0 .async 1 9, .returned 0 .yes, .asked 1 .wait 1 9, .ran 0 9 (some 1), .left 1, .ran 1 9 (some 1)] := rfl

/-- **C91, refuted.** `execute` returns true although the function will never be
run: the asynchronous and the default executor of a stopped processor. -/
theorem true_though_never : ∃ s, runs bad9 init [.stop 1, .exec .async 1 none 5, .reuse 1, .exec .dflt 1 none 6, .run 1] = some s ∧
    s.log = [.stopped 1, .asked 0 .async 1 5, .returned 0 .yes, .reused 1, .asked 1 .dflt 1 6, .returned 1 .yes, .ran 1 6 (some 1)] ∧
    (∀ acts s', runs bad9 s acts = some s' → ∀ g o, Ev.ran 0 g o ∉ s'.log) := by
  refine ⟨_, rfl, rfl, ?_⟩
  intro acts s' hr
  obtain ⟨es, hes⟩ := log_runs hr
  have hA := all_runs (all_runs (acts := [.stop 1, .exec .async 1 none 5, .reuse 1, .exec .dflt 1 none 6, .run 1]) (all_init (c := bad9)) rfl) hr
  refine (hA.fate.lost [.stopped 1] ([.returned 0 .yes, .reused 1, .asked 1 .dflt 1 6, .returned 1 .yes, .ran 1 6 (some 1)] ++ es) 0 .async 1 5 ?_ (.inl rfl)).1
  rw [hes]; rfl

/-- **C91, refuted.** The direct executor returns false although it ran the
function, when that threw. -/
theorem direct_false_though_run : (runs bad9 init [.direct none 9]).map view =
    some [.direct 0 9, .ran 0 9 none, .returned 0 .no] := rfl

/-- **C91, refuted.** The waiting executor returns true although the function
threw, and although the function was dropped by `stop`. -/
theorem wait_true_though_dropped : (runs bad9 init [.exec .wait 1 none 5, .stop 1, .resume 0, .exec .wait 2 none 9, .run 2, .resume 1]).map view =
    some [.asked 0 .wait 1 5, .stopped 1, .returned 0 .yes, .asked 1 .wait 2 9, .ran 1 9 (some 2), .returned 1 .yes] := rfl

/-- **C91, refuted.** A `will...` function called twice: the second call hands
over nothing, and the empty function throws in the processor's loop. -/
theorem will_twice_breaks_loop : (runs bad9 init [.will .async 1 5, .call 0 none, .call 0 none, .run 1, .run 1]).map view =
    some [.called 0 0, .asked 0 .async 1 5, .returned 0 .done, .called 1 0, .askedEmpty 1 .async 1, .returned 1 .done,
      .ran 0 5 (some 1), .left 1] := rfl

/-- ... whereas each copy hands over the function once. -/
example : (runs bad9 init [.will .async 1 5, .copy 0, .call 0 none, .call 1 none, .run 1, .run 1]).map view =
    some [.called 0 0, .asked 0 .async 1 5, .returned 0 .done, .called 1 1, .asked 1 .async 1 5, .returned 1 .done,
      .ran 0 5 (some 1), .ran 1 5 (some 1)] := rfl

/-- The blocking `will...` function throws when the processor is stopped, and is
spent by it; it returns quietly when the processor is gone. -/
theorem will_blocking_throws : (runs bad9 init [.stop 1, .will .wait 1 5, .call 0 none, .reuse 1, .call 0 none, .run 1, .resume 1, .gone 1, .call 0 none]).map view =
    some [.stopped 1, .called 0 0, .asked 0 .wait 1 5, .returned 0 .threw, .reused 1, .called 1 0, .askedEmpty 1 .wait 1,
      .returned 1 .done, .gone 1, .called 2 0, .returned 2 .done] := rfl

/-- The default executor on its own thread with a function that throws: the end. -/
theorem default_inline_terminates : (runs bad9 init [.exec .dflt 1 (some 1) 9]).map view =
    some [.asked 0 .dflt 1 9, .ran 0 9 (some 1), .terminated] := rfl

end Maf.Exe
