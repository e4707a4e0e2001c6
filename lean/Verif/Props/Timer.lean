import Verif.Lemmas.TimerLive
/-
C29, C30, C31, C32, C62: timers.
-/
namespace Maf.Tmr

/-- A call of `start` or `restart` for timer `i`. -/
def Sets (i : Tm) : Ev → Prop
  | .started j _ _ => j = i
  | .restarted j _ => j = i
  | _ => False

theorem stays_idle {log : List Ev} (h : Hist EvOk log) {i : Tm} (l2 : List Ev) : ∀ {l1 r : List Ev}, log = l1 ++ (l2 ++ r) → runningIn l1 i = false →
    (∀ e ∈ l2, ¬ Sets i e) → runningIn (l1 ++ l2) i = false := by
  induction l2 with
  | nil => intro l1 r _ h1 _; simpa using h1
  | cons e l2 ih =>
    intro l1 r hl h1 hno
    have := ih (l1 := l1 ++ [e]) (r := r) (by rw [hl]; simp) ?_ (fun e' he => hno e' (by simp [he]))
    · simpa using this
    · have hs := hno e (by simp)
      have ho := h.all l1 e (l2 ++ r) (by rw [hl]; simp)
      rw [runningIn_append]
      simp only [List.foldl_cons, List.foldl_nil]
      cases e <;> simp only [runStep, Sets, EvOk] at hs ho ⊢ <;> try exact h1
      · rw [if_neg hs]; exact h1
      · rw [if_neg hs]; exact h1
      · split
        · rfl
        · exact h1
      · split
        · next e => subst e; rw [h1] at ho; cases ho.1
        · exact h1

theorem last_keep {i : Tm} (l : List Ev) : ∀ {o}, (∀ e ∈ l, ¬ Sets i e) → l.foldl (lastStep i) o = o := by
  induction l with
  | nil => intro o _; rfl
  | cons e l ih =>
    intro o h
    have he := h e (by simp)
    rw [List.foldl_cons, ih fun e' h' => h e' (by simp [h'])]
    cases e <;> simp only [lastStep, Sets] at he ⊢
    · rw [if_neg he]
    · rw [if_neg he]

/-! ### C29 -/

/-- C29: a callback is called at a time `t` that is at least the duration after the last `start`. -/
theorem not_early_start {as : List Act} {s : State} (hr : run init as = some s) {i : Tm} {t0 d t dl : Nat} {c : Bool} {l1 l2 l3 : List Ev}
    (hl : s.log = l1 ++ .started i t0 d :: l2 ++ .fired i t dl c :: l3) (hno : ∀ e ∈ l2, ¬ Sets i e) : t0 + d ≤ t := by
  have := (reach_univ hr).1.hist.all _ _ _ hl
  simp only [EvOk] at this
  have e : lastIn (l1 ++ .started i t0 d :: l2) i = (t0, d) := by
    rw [lastIn_append, List.foldl_cons, last_keep _ hno]; simp [lastStep]
  rw [e] at this
  exact Nat.le_trans this.2.1 this.2.2

/-- C29: and the same after a `restart`, with the duration given to the last `start`. -/
theorem not_early_restart {as : List Act} {s : State} (hr : run init as = some s) {i : Tm} {t0 t1 d t dl : Nat} {c : Bool} {l0 l1 l2 l3 : List Ev}
    (hl : s.log = l0 ++ .started i t0 d :: l1 ++ .restarted i t1 :: l2 ++ .fired i t dl c :: l3)
    (h1 : ∀ e ∈ l1, ∀ t d, e ≠ .started i t d) (hno : ∀ e ∈ l2, ¬ Sets i e) : t1 + d ≤ t := by
  have := (reach_univ hr).1.hist.all _ _ _ hl
  simp only [EvOk] at this
  have e0 : ∀ l : List Ev, ∀ o : Nat × Nat, (∀ e ∈ l, ∀ t d, e ≠ .started i t d) → (l.foldl (lastStep i) o).2 = o.2 := by
    intro l
    induction l with
    | nil => intro o _; rfl
    | cons e l ih =>
      intro o h
      rw [List.foldl_cons, ih _ fun e' h' => h e' (by simp [h'])]
      have he := h e (by simp)
      cases e <;> simp only [lastStep]
      · split
        · next e => subst e; exact absurd rfl (he _ _)
        · rfl
      · split <;> rfl
  have e : lastIn (l0 ++ .started i t0 d :: l1 ++ .restarted i t1 :: l2) i = (t1, d) := by
    rw [lastIn_append, List.foldl_cons, last_keep _ hno]
    simp only [lastStep, if_true]
    rw [lastIn_append, List.foldl_cons, e0 _ _ h1]
    simp [lastStep]
  rw [e] at this
  exact Nat.le_trans this.2.1 this.2.2

/-- C29: there always is such a call. -/
theorem fired_was_set {as : List Act} {s : State} (hr : run init as = some s) {i : Tm} {t dl : Nat} {c : Bool} {l1 l2 : List Ev}
    (hl : s.log = l1 ++ .fired i t dl c :: l2) : ∃ e ∈ l1, Sets i e := by
  have hh := (reach_univ hr).1.hist
  have := hh.all _ _ _ hl
  refine Classical.byContradiction fun hno => ?_
  have k := stays_idle hh (i := i) l1 (l1 := []) (r := .fired i t dl c :: l2) (by simpa using hl) rfl fun e he hs => hno ⟨e, he, hs⟩
  simp only [EvOk] at this
  rw [List.nil_append] at k
  rw [k] at this
  cases this.1

/-! ### C30 -/

/-- C30: once a timer has fired as a one-shot timer, it does not fire again until it is started or
restarted. -/
theorem fires_once {as : List Act} {s : State} (hr : run init as = some s) {i : Tm} {t dl t' dl' : Nat} {c' : Bool} {l1 l2 l3 : List Ev}
    (hl : s.log = l1 ++ .fired i t dl false :: l2 ++ .fired i t' dl' c' :: l3) : ∃ e ∈ l2, Sets i e := by
  have hh := (reach_univ hr).1.hist
  have := hh.all _ _ _ hl
  refine Classical.byContradiction fun hno => ?_
  have k := stays_idle hh (i := i) l2 (l1 := l1 ++ [.fired i t dl false]) (r := .fired i t' dl' c' :: l3) (by rw [hl]; simp) (by simp [runStep]) fun e he hs => hno ⟨e, he, hs⟩
  simp only [EvOk] at this
  simp only [List.append_assoc, List.singleton_append] at k this
  rw [k] at this
  cases this.1

/-- C30: what `running()` tells is what the history says. -/
theorem running_is {as : List Act} {s : State} (hr : run init as = some s) (i : Tm) : (s.data i).running = runningIn s.log i :=
  ((reach_univ hr).1.run i).symm

/-- C30: in calm histories, the deadline that passes when a timer fires for the k-th time is
start + k * duration. -/
theorem no_drift_partial {as : List Act} {s : State} (hr : run init as = some s) (hc : Calm s.log) {i : Tm} {t dl : Nat} {c : Bool} {l1 l2 : List Ev}
    (hl : s.log = l1 ++ .fired i t dl c :: l2) : dl = (lastIn l1 i).1 + (firesIn l1 i + 1) * (lastIn l1 i).2 ∧ dl ≤ t :=
  ⟨(((reach_univ hr).2.2 hc).hist.all _ _ _ hl).1, ((reach_univ hr).1.hist.all _ _ _ hl).2.2⟩

/-- Not in all histories: a job that runs while the processor waits for a cyclic timer starts
another timer and lasts past the deadline. The cyclic timer fires twice for the same deadline, and the
other one fires late. -/
theorem drift : ∃ s, run init [.post, .take, .op (.setCyclic 0 true) [], .op (.start 0 10) [0], .ret, .take, .look, .post, .waitJob, .tick 5, .op (.start 1 1) [1, 0],
      .tick 12, .ret, .fire [1, 0], .ret, .look, .fire [0], .ret, .look, .fire [0]] = some s ∧
    s.log = [.started 0 0 10, .picked 0, .started 1 5 1, .overran 0, .fired 0 12 10 true, .picked 1, .fired 1 12 7 false, .picked 0, .fired 0 12 10 true] :=
  ⟨_, rfl, rfl⟩

/-! ### C31 -/

/-- C31: after `stop`, a timer does not fire until it is started or restarted. -/
theorem stopped_silent {as : List Act} {s : State} (hr : run init as = some s) {i : Tm} {t dl : Nat} {c : Bool} {l1 l2 l3 : List Ev}
    (hl : s.log = l1 ++ .stopped i :: l2 ++ .fired i t dl c :: l3) : ∃ e ∈ l2, Sets i e := by
  have hh := (reach_univ hr).1.hist
  have := hh.all _ _ _ hl
  refine Classical.byContradiction fun hno => ?_
  have k := stays_idle hh (i := i) l2 (l1 := l1 ++ [.stopped i]) (r := .fired i t dl c :: l3) (by rw [hl]; simp) (by simp [runStep]) fun e he hs => hno ⟨e, he, hs⟩
  simp only [EvOk] at this
  simp only [List.append_assoc, List.singleton_append] at k this
  rw [k] at this
  cases this.1

/-- The events about timer `i`. -/
def About (i : Tm) : Ev → Bool
  | .started j _ _ | .restarted j _ | .stopped j | .fired j _ _ _ => j == i
  | _ => false

/-- C31: in calm histories, the deadline a timer fires for depends on what was done to this timer
only, not on what was done to others. -/
theorem own_deadline_partial {as as' : List Act} {s s' : State} (hr : run init as = some s) (hr' : run init as' = some s') (hc : Calm s.log) (hc' : Calm s'.log)
    {i : Tm} {t dl t' dl' : Nat} {c c' : Bool} {l1 l2 l1' l2' : List Ev} (hl : s.log = l1 ++ .fired i t dl c :: l2) (hl' : s'.log = l1' ++ .fired i t' dl' c' :: l2')
    (he : l1.filter (About i) = l1'.filter (About i)) : dl = dl' := by
  have k1 : ∀ l o, (l : List Ev).foldl (lastStep i) o = (l.filter (About i)).foldl (lastStep i) o := by
    intro l
    induction l with
    | nil => intro o; rfl
    | cons e l ih =>
      intro o
      rw [List.foldl_cons, ih, List.filter_cons]
      split
      · rfl
      · next h => cases e <;> simp_all [About, lastStep]
  have k2 : ∀ l o, (l : List Ev).foldl (firesStep i) o = (l.filter (About i)).foldl (firesStep i) o := by
    intro l
    induction l with
    | nil => intro o; rfl
    | cons e l ih =>
      intro o
      rw [List.foldl_cons, ih, List.filter_cons]
      split
      · rfl
      · next h => cases e <;> simp_all [About, firesStep]
  rw [(no_drift_partial hr hc hl).1, (no_drift_partial hr' hc' hl').1]
  unfold lastIn firesIn
  rw [k1 l1, k2 l1, k1 l1', k2 l1', he]

/-- The state after: timer 0 is due at 10; while the processor waits for it, a job starts timer 1, due at 6, and
lasts until 12. -/
def lostRun : List Act := [.post, .take, .op (.start 0 10) [0], .ret, .take, .look, .post, .waitJob, .tick 5, .op (.start 1 1) [1, 0],
      .tick 12, .ret, .fire [0], .ret]

/-- Steps of the processor's thread, jobs posted, and time going on. -/
def Goes (a : Act) : Prop := a.own = true ∨ a = .post ∨ ∃ t, 10 ≤ t ∧ a = .tick t

def SpinI (n : Nat) (s : State) : Prop :=
  s.ub = false ∧ s.closed = false ∧ s.records = [0] ∧ (s.data 0).running = false ∧ (s.data 0).deadline = 10 ∧ 10 ≤ s.now ∧ (s.data 1).running = true ∧
  (s.stack = [.check] ∨ s.stack = [.waited 0 false]) ∧ n ≤ s.jobs.length

theorem SpinI_step {n : Nat} {s s' : State} {a : Act} (h : SpinI n s) (hg : Goes a) (hs : step s a = some s') : SpinI s.jobs.length s' ∧ (s'.log = s.log ∨ s'.log = s.log ++ [.picked 0]) := by
  obtain ⟨h1, h2, h3, h4, h5, h6, h7, h8, h9⟩ := h
  rcases hg with hg | rfl | ⟨t, ht, rfl⟩
  · rcases h8 with h8 | h8 <;> cases a <;> simp [step, h1, h2, h3, h4, h5, h6, h7, h8, Act.own, Nat.not_lt.2 h6] at hg hs
    all_goals (subst hs; simp_all [SpinI])
  · simp [step, h1, push, h2] at hs
    subst hs
    simp_all [SpinI]
  · simp [step, h1] at hs
    subst hs
    simp_all [SpinI]

theorem SpinI_run {as : List Act} : ∀ {n : Nat} {s s' : State}, SpinI n s → (∀ a ∈ as, Goes a) → run s as = some s' →
    SpinI n s' ∧ ∃ b, s'.log = s.log ++ b ∧ ∀ e ∈ b, e = .picked 0 := by
  induction as with
  | nil => intro n s s' h _ e; simp only [run] at e; cases e; exact ⟨h, [], by simp, by simp⟩
  | cons a as ih =>
    intro n s s' h hg e
    simp only [run] at e
    cases hst : step s a with
    | none => rw [hst] at e; cases e
    | some s1 =>
      rw [hst] at e
      have k := SpinI_step h (hg a (by simp)) hst
      have hlen := h.2.2.2.2.2.2.2.2
      obtain ⟨h1, b, hb, hb'⟩ := ih k.1 (fun a' ha => hg a' (by simp [ha])) e
      refine ⟨⟨h1.1, h1.2.1, h1.2.2.1, h1.2.2.2.1, h1.2.2.2.2.1, h1.2.2.2.2.2.1, h1.2.2.2.2.2.2.1, h1.2.2.2.2.2.2.2.1, Nat.le_trans hlen h1.2.2.2.2.2.2.2.2⟩, ?_⟩
      rcases k.2 with e1 | e1
      · exact ⟨b, by rw [hb, e1], hb'⟩
      · refine ⟨.picked 0 :: b, by rw [hb, e1]; simp, ?_⟩
        intro e he
        rcases List.mem_cons.1 he with rfl | he
        · rfl
        · exact hb' e he

/-- Not in all histories: starting timer 1 takes it from the processor for good. Timer 1 is running but never fires, however
long one waits, no job runs any more, and the processor's thread does not rest: it can always make a
step. -/
theorem lost_timer_spins : ∃ s, run init lostRun = some s ∧ (s.data 1).running = true ∧ dueIn s.log 1 ≤ s.now ∧
    ∀ as s', (∀ a ∈ as, Goes a) → run s as = some s' →
      (s'.data 1).running = true ∧ s.jobs.length ≤ s'.jobs.length ∧ (∃ b, s'.log = s.log ++ b ∧ ∀ e ∈ b, e = .picked 0) ∧ ∃ a s'', a.own = true ∧ step s' a = some s'' := by
  have h0 : ∃ s, run init lostRun = some s ∧ dueIn s.log 1 ≤ s.now ∧ SpinI s.jobs.length s :=
    ⟨_, rfl, by decide, rfl, rfl, rfl, rfl, rfl, by decide, rfl, .inl rfl, Nat.le_refl _⟩
  obtain ⟨s, h, hd, h0⟩ := h0
  refine ⟨s, h, h0.2.2.2.2.2.2.1, hd, fun as s' hg hr => ?_⟩
  have k := SpinI_run h0 hg hr
  obtain ⟨⟨h1, h2, h3, h4, h5, h6, h7, h8, h9⟩, hb⟩ := k
  refine ⟨h7, h9, hb, ?_⟩
  rcases h8 with h8 | h8
  · refine ⟨.look, ?_⟩
    simp [step, h1, h8, h3, h5, h6, Act.own]
  · refine ⟨.fire [], ?_⟩
    simp [step, h1, h8, h2, h5, h4, Nat.not_lt.2 h6, Act.own]

/-! ### C32 -/

/-- C32: in calm histories, the timer the loop picks, and the one that fires, is a running one, and none
that is running has an earlier deadline. -/
theorem earliest_first_partial {as : List Act} {s : State} (hr : run init as = some s) (hc : Calm s.log) {e : Ev} {l1 l2 : List Ev} {i : Tm}
    (hl : s.log = l1 ++ e :: l2) (he : e = .picked i ∨ ∃ t dl c, e = .fired i t dl c) :
    runningIn l1 i = true ∧ ∀ j, runningIn l1 j = true → dueIn l1 i ≤ dueIn l1 j := by
  have h1 := ((reach_univ hr).2.2 hc).hist.all _ _ _ hl
  have h2 := (reach_univ hr).1.hist.all _ _ _ hl
  rcases he with rfl | ⟨t, dl, c, rfl⟩
  · exact h1
  · refine ⟨h2.1, fun j hj => ?_⟩
    rw [← h1.1]; exact h1.2 j hj

/-- C32: in calm histories, the records are the running timers, once each, an earliest one in front,
with the deadlines the history tells; and nothing undefined has happened. -/
theorem records_exact_partial {as : List Act} {s : State} (hr : run init as = some s) (hc : Calm s.log) :
    s.ub = false ∧ s.records.Nodup ∧ (∀ i, i ∈ s.records ↔ runningIn s.log i = true) ∧ (∀ i ∈ s.records, (s.data i).deadline = dueIn s.log i) ∧
    ∀ f ∈ s.records.head?, ∀ j ∈ s.records, (s.data f).deadline ≤ (s.data j).deadline := by
  have h := (reach_univ hr).2.2 hc
  refine ⟨h.ub, h.nodup, fun i => ?_, fun i hi => h.due i ((h.mem i).1 hi), h.min⟩
  rw [h.mem, (reach_univ hr).1.run]

/-- Not in all histories: a `restart` of a timer that is not running makes it running, but it is not
in the records. -/
theorem restart_not_recorded : ∃ s, run init [.post, .take, .op (.start 0 10) [0], .op (.restart 1) [0]] = some s ∧ runningIn s.log 1 = true ∧ s.records = [0] :=
  ⟨_, rfl, by decide, rfl⟩

/-- And with no timer in the records, it is undefined behaviour. -/
theorem restart_undefined : ∃ s, run init [.post, .take, .op (.restart 1) []] = some s ∧ s.ub = true := ⟨_, rfl, rfl⟩

/-! ### C62 -/

/-- C62: in any history without a stop of the processor, while timers are in the records a check of them is
queued or in progress. -/
theorem attended {as : List Act} {s : State} (hr : run init as = some s) (hns : Ev.procStopped ∉ s.log) (h : s.records ≠ []) :
    Job.check ∈ s.jobs ∨ ∃ f ∈ s.stack, f = .check ∨ (∃ i dl, f = .waiting i dl) ∨ (∃ i t, f = .held i t) ∨ ∃ i t, f = .waited i t := by
  rcases (reach_live hr hns).att h with k | ⟨f, hf, k⟩
  · exact .inl k
  · refine .inr ⟨f, hf, ?_⟩
    cases f <;> simp_all [Frame.checks]

/-- C62: at any point of a calm history without a stop of the processor, if a running timer is due,
the processor's thread alone can go on until a timer fires. -/
theorem due_can_fire_partial {as : List Act} {s : State} (hr : run init as = some s) (hc : Calm s.log) (hns : Ev.procStopped ∉ s.log) {i : Tm}
    (hi : runningIn s.log i = true) (hd : dueIn s.log i ≤ s.now) :
    ∃ as' s' pre j dl c, (∀ a ∈ as', a.own = true) ∧ run s as' = some s' ∧ s'.log = s.log ++ pre ++ [.fired j s.now dl c] := by
  have hu := reach_univ hr
  have h := hu.2.2 hc
  rw [hu.1.run] at hi
  obtain ⟨as', s', pre, j, dl, c, h1, h2, h3, -⟩ := can_fire _ s (Nat.le_refl _) hns hc (reach_live hr hns) h ⟨i, hi, by rw [h.due i hi]; exact hd⟩
  exact ⟨as', s', pre, j, dl, c, h1, h2, h3⟩

/-- C62: and while the loop waits with nothing to do, it waits for the earliest deadline of the running timers. -/
theorem waits_for_earliest_partial {as : List Act} {s : State} (hr : run init as = some s) (hc : Calm s.log) (hns : Ev.procStopped ∉ s.log) {i : Tm} {dl : Nat} {fs : List Frame}
    (hst : s.stack = .waiting i dl :: fs) : runningIn s.log i = true ∧ dl = dueIn s.log i ∧ ∀ j, runningIn s.log j = true → dl ≤ dueIn s.log j := by
  have hu := reach_univ hr
  have h := hu.2.2 hc
  have hl := reach_live hr hns
  have hf := h.front (.waiting i dl) (by rw [hst]; simp) i rfl
  have hi : i ∈ s.records := by
    cases hrec : s.records with
    | nil => rw [hrec] at hf; cases hf
    | cons f rest => rw [hrec] at hf; cases hf; simp
  have hrun := (h.mem i).1 hi
  have hdl := (hl.top _ _ hst).2 i dl rfl
  refine ⟨by rw [hu.1.run]; exact hrun, by rw [hdl, h.due i hrun], fun j hj => ?_⟩
  rw [hu.1.run] at hj
  rw [hdl, ← h.due j hj]
  exact h.min i hf j ((h.mem j).2 hj)

/-- Not when the processor was stopped and is used again: the timer is running and in the records, but
nothing attends to it. -/
theorem reuse_forgets : ∃ s, run init [.post, .take, .op (.start 0 10) [0], .ret, .stopProc, .reuse, .tick 20] = some s ∧
    runningIn s.log 0 = true ∧ dueIn s.log 0 ≤ s.now ∧ s.closed = false ∧ s.jobs = [] ∧ s.stack = [] := ⟨_, rfl, by decide, by decide, rfl, rfl, rfl⟩

/-! ### A case -/

/-- A calm history: a cyclic timer, a one-shot timer started while the processor waits, a restart, a stop. -/
def calmRun : List Act := [.post, .take, .op (.setCyclic 0 true) [], .op (.start 0 10) [0], .ret, .take, .look, .post, .waitJob, .tick 2, .op (.start 1 3) [1, 0],
  .op (.start 2 30) [1, 0, 2], .op (.restart 2) [1, 0, 2], .ret, .fire [], .look, .waitJob, .fire [], .look, .waitJob, .fire [], .look, .waitJob, .fire [], .look, .tick 6, .waitOut, .fire [0, 2], .op (.stop 2) [0], .ret, .look, .tick 11, .waitOut, .fire [0], .ret, .look, .tick 20]

theorem calmRun_log : ∃ s, run init calmRun = some s ∧ s.log = [.started 0 0 10, .picked 0, .started 1 2 3, .started 2 2 30, .restarted 2 2, .picked 1, .picked 1, .picked 1, .picked 1,
    .fired 1 6 5 false, .stopped 2, .picked 0, .fired 0 11 10 true, .picked 0] ∧ s.stack = [.waiting 0 20] ∧ s.now = 20 := ⟨_, rfl, rfl, rfl, rfl⟩

/-- The hypotheses of the theorems are met: it is calm, the processor is not stopped, and timer 0 is due. -/
example : ∃ s, run init calmRun = some s ∧ Calm s.log ∧ Ev.procStopped ∉ s.log ∧ runningIn s.log 0 = true ∧ dueIn s.log 0 ≤ s.now ∧ s.stack = [.waiting 0 20] := by
  obtain ⟨s, hr, hl, hst, hnow⟩ := calmRun_log
  refine ⟨s, hr, ?_, by rw [hl]; decide, by rw [hl]; decide, by rw [hl, hnow]; decide, hst⟩
  rw [hl]
  constructor
  · intro l1 i t l2 e
    have hidx : l1.length < 14 := by have := congrArg List.length e; simp at this; omega
    have h1 := congrArg (fun l => l[l1.length]?) e
    have h2 := congrArg (fun l => l.take l1.length) e
    simp only [List.getElem?_append_right (Nat.le_refl _), Nat.sub_self, List.getElem?_cons_zero] at h1
    rw [List.take_left] at h2
    generalize l1.length = n at *
    subst h2
    match n, hidx with
    | 4, _ => simp at h1; obtain ⟨rfl, -⟩ := h1; rfl
    | 0, _ | 1, _ | 2, _ | 3, _ | 5, _ | 6, _ | 7, _ | 8, _ | 9, _ | 10, _ | 11, _ | 12, _ | 13, _ => simp at h1
  · intro i; simp

/-- And a timer that was stopped fires after a new start. -/
example : ∃ s, run init [.post, .take, .op (.start 0 10) [0], .op (.stop 0) [], .op (.start 0 5) [0], .ret, .tick 7, .take, .look, .fire []] = some s ∧
    s.log = [.started 0 0 10, .stopped 0, .started 0 0 5] ++ [.picked 0, .fired 0 7 5 false] := ⟨_, rfl, rfl⟩

end Maf.Tmr
