import Verif.Spec.TimerThrow

/-!
# C128: timers and exceptions on their thread

The full property: after every history, with whatever exceptions, that the user catches, every running timer will still be called (`CanFire`).
Refuted: `silent_after_function` (a function throws while `checkAllTimers` waits: no timer of the thread is called any more, not even one started later, until all have been stopped) and
`silent_after_callback` (a callback throws: the other timers, and itself if it is cyclic, are not called until a timer is started).
Proved: from any state with no timer running on, as long as exceptions come out only while no timer is running (`can_fire_partial`).
-/
namespace Maf.Tth

variable {cyc : Tid → Bool}

private structure Inv (s : State) : Prop where
  a : s.st = .waiting → .wait ∈ s.stk
  b : s.recs ≠ [] → .check ∈ s.stk ∨ .wait ∈ s.stk ∨ 0 < s.jobs

private structure Base (s : State) : Prop where
  c : s.recs = [] → s.st ≠ .waiting

private theorem stAfter_waiting {l : List Tid} {st : St} (h : stAfter l st = .waiting) : l ≠ [] ∧ st = .waiting := by
  unfold stAfter at h; split at h
  · simp at h
  · exact ⟨‹_›, h⟩

/-- Which frames `checkAllTimers` has may be hidden below waits, so `done` is looked at once. -/
private theorem done_eq (s : State) (fs : List Frame) :
    (done s fs).recs = s.recs ∧ (done s fs).jobs = s.jobs ∧ (done s fs).fired = s.fired ∧
    ((∃ gs, fs = .wait :: gs ∧ (done s fs).stk = .check :: gs ∧ (done s fs).st = .haveTimer) ∨
     ((done s fs).stk = fs ∧ (done s fs).st = s.st)) := by
  unfold done
  split
  · exact ⟨rfl, rfl, rfl, .inl ⟨_, rfl, rfl, rfl⟩⟩
  · exact ⟨rfl, rfl, rfl, .inr ⟨rfl, rfl⟩⟩

private theorem base_step {s s' : State} {a : Act} (h : Base s) (hs : step cyc s a = some s') : Base s' := by
  constructor
  intro he hw
  cases a with
  | start t =>
    simp only [step] at hs
    split at hs <;> (try split at hs) <;> simp only [Option.some.injEq, reduceCtorEq] at hs
    subst hs
    simp only at he hw
    split at he
    · exact h.c he hw
    · simp at he
  | stop t =>
    simp only [step] at hs
    split at hs <;> (try split at hs) <;> (try simp only [reduceCtorEq] at hs)
    split at hs <;> simp only [Option.some.injEq] at hs <;> subst hs
    · exact (stAfter_waiting hw).1 he
    · exact h.c he hw
  | runFn =>
    simp only [step] at hs; split at hs <;> simp only [Option.some.injEq, reduceCtorEq] at hs
    subst hs; exact h.c he hw
  | runJob =>
    simp only [step] at hs; split at hs <;> (try simp only [reduceCtorEq] at hs)
    split at hs <;> simp only [Option.some.injEq] at hs <;> subst hs
    · obtain ⟨d1, _, _, d⟩ := done_eq { s with jobs := s.jobs - 1 } s.stk
      rw [d1] at he
      rcases d with ⟨_, _, _, d⟩ | ⟨_, d⟩ <;> rw [d] at hw
      · simp at hw
      · exact h.c he hw
    · exact h.c he hw
  | ret =>
    simp only [step] at hs; split at hs <;> simp only [Option.some.injEq, reduceCtorEq] at hs <;> subst hs
    · obtain ⟨d1, _, _, d⟩ := done_eq s ‹_›
      rw [d1] at he
      rcases d with ⟨_, _, _, d⟩ | ⟨_, d⟩ <;> rw [d] at hw
      · simp at hw
      · exact h.c he hw
    · exact h.c he hw
  | throw =>
    simp only [step] at hs
    split at hs <;> (try split at hs) <;> simp only [Option.some.injEq, reduceCtorEq] at hs
    subst hs; exact h.c he hw
  | leave =>
    simp only [step] at hs
    split at hs <;> (try split at hs) <;> simp only [Option.some.injEq, reduceCtorEq] at hs
    subst hs
    obtain ⟨d1, _, _, d⟩ := done_eq s ‹_›
    rw [d1] at he
    rcases d with ⟨_, _, _, d⟩ | ⟨_, d⟩ <;> rw [d] at hw
    · simp at hw
    · exact h.c he hw
  | doze =>
    simp only [step] at hs
    split at hs <;> (try split at hs) <;> simp only [Option.some.injEq, reduceCtorEq] at hs
    subst hs; rename_i hne; exact hne he
  | wake =>
    simp only [step] at hs
    split at hs <;> simp only [Option.some.injEq, reduceCtorEq] at hs
    subst hs; simp at hw
  | expire t =>
    simp only [step] at hs
    split at hs <;> (try split at hs) <;> (try simp only [reduceCtorEq] at hs)
    split at hs <;> simp only [Option.some.injEq] at hs <;> subst hs
    · simp at hw
    · have := (stAfter_waiting hw).2; simp at this

private theorem inv_step {s s' : State} {a : Act} (hb : Base s) (h : Inv s) (ht : a = .throw → s.recs = [])
    (hs : step cyc s a = some s') : Inv s' := by
  obtain ⟨ha, hbb⟩ := h
  cases a with
  | start t =>
    simp only [step] at hs
    split at hs <;> (try split at hs) <;> simp only [Option.some.injEq, reduceCtorEq] at hs
    subst hs
    exact ⟨ha, fun _ => .inr (.inr (Nat.succ_pos _))⟩
  | stop t =>
    simp only [step] at hs
    split at hs <;> (try split at hs) <;> (try simp only [reduceCtorEq] at hs)
    split at hs <;> simp only [Option.some.injEq] at hs <;> subst hs
    · refine ⟨fun hw => ha (stAfter_waiting hw).2, fun _ => hbb fun e => ?_⟩
      rename_i hm; rw [e] at hm; simp at hm
    · exact ⟨ha, hbb⟩
  | runFn =>
    simp only [step] at hs; split at hs <;> simp only [Option.some.injEq, reduceCtorEq] at hs
    subst hs
    exact ⟨fun hw => by simpa using ha hw, fun hr => by simpa using hbb hr⟩
  | runJob =>
    simp only [step] at hs; split at hs <;> (try simp only [reduceCtorEq] at hs)
    rename_i hi
    split at hs <;> simp only [Option.some.injEq] at hs <;> subst hs
    · rename_i hw
      have hwm := ha hw
      obtain ⟨d1, _, _, d⟩ := done_eq { s with jobs := s.jobs - 1 } s.stk
      rcases d with ⟨gs, e, d2, d3⟩ | ⟨d2, d3⟩
      · exact ⟨fun hw => by rw [d3] at hw; simp at hw, fun _ => .inl (by rw [d2]; simp)⟩
      · exact ⟨fun _ => by rw [d2]; exact hwm, fun _ => .inr (.inl (by rw [d2]; exact hwm))⟩
    · rename_i hw
      exact ⟨fun hw' => absurd hw' hw, fun _ => .inl (by simp)⟩
  | ret =>
    simp only [step] at hs; split at hs <;> simp only [Option.some.injEq, reduceCtorEq] at hs <;> subst hs
    · rename_i fs hk
      rw [hk] at ha hbb
      obtain ⟨d1, dj, _, d⟩ := done_eq s fs
      rcases d with ⟨gs, e, d2, d3⟩ | ⟨d2, d3⟩
      · exact ⟨fun hw => by rw [d3] at hw; simp at hw, fun _ => .inl (by rw [d2]; simp)⟩
      · exact ⟨fun hw => by rw [d3] at hw; rw [d2]; simpa using ha hw, fun hr => by rw [d1] at hr; rw [d2, dj]; simpa using hbb hr⟩
    · rename_i t fs hk
      rw [hk] at ha hbb
      exact ⟨fun hw => by simpa using ha hw, fun hr => by simpa using hbb hr⟩
  | throw =>
    simp only [step] at hs
    split at hs <;> (try split at hs) <;> simp only [Option.some.injEq, reduceCtorEq] at hs
    subst hs
    have he := ht rfl
    exact ⟨fun hw => absurd hw (hb.c he), fun hr => absurd he hr⟩
  | leave =>
    simp only [step] at hs
    split at hs <;> (try split at hs) <;> simp only [Option.some.injEq, reduceCtorEq] at hs
    subst hs
    rename_i fs hk he
    obtain ⟨d1, _, _, d⟩ := done_eq s fs
    refine ⟨fun hw => ?_, fun hr => absurd (d1 ▸ he) hr⟩
    rcases d with ⟨_, _, _, d⟩ | ⟨_, d⟩ <;> rw [d] at hw
    · simp at hw
    · exact absurd hw (hb.c he)
  | doze =>
    simp only [step] at hs
    split at hs <;> (try split at hs) <;> simp only [Option.some.injEq, reduceCtorEq] at hs
    subst hs; exact ⟨fun _ => by simp, fun _ => .inr (.inl (by simp))⟩
  | wake =>
    simp only [step] at hs
    split at hs <;> simp only [Option.some.injEq, reduceCtorEq] at hs
    subst hs; exact ⟨fun hw => by simp at hw, fun _ => .inl (by simp)⟩
  | expire t =>
    simp only [step] at hs
    split at hs <;> (try split at hs) <;> (try simp only [reduceCtorEq] at hs)
    split at hs <;> simp only [Option.some.injEq] at hs <;> subst hs
    · exact ⟨fun hw => by simp at hw, fun _ => .inl (by simp)⟩
    · exact ⟨fun hw => by have := (stAfter_waiting hw).2; simp at this, fun _ => .inl (by simp)⟩

private theorem base_run (as : List Act) : ∀ {s s' : State}, Base s → run cyc s as = some s' → Base s' := by
  induction as with
  | nil => intro s s' h hr; simp only [run, Option.some.injEq] at hr; subst hr; exact h
  | cons a as ih =>
    intro s s' h hr
    simp only [run, Option.bind_eq_some_iff] at hr
    obtain ⟨s1, h1, h2⟩ := hr
    exact ih (base_step h h1) h2

private theorem inv_run (as : List Act) : ∀ {s s' : State}, Base s → Inv s → Careful cyc s as → run cyc s as = some s' → Inv s' := by
  induction as with
  | nil => intro s s' _ h _ hr; simp only [run, Option.some.injEq] at hr; subst hr; exact h
  | cons a as ih =>
    intro s s' hb h hc hr
    simp only [run, Option.bind_eq_some_iff] at hr
    obtain ⟨s1, h1, h2⟩ := hr
    exact ih (base_step hb h1) (inv_step hb h hc.1 h1) (hc.2 s1 h1) h2

private theorem base_start : Base start := ⟨fun _ => by simp [start]⟩

private theorem can_step {s s1 : State} {a : Act} {t : Tid} (hc : a.calm = true) (h1 : step cyc s a = some s1) (hf : s1.fired = s.fired)
    (h : CanFire cyc s1 t) : CanFire cyc s t := by
  obtain ⟨as, s', h2, h3, h4⟩ := h
  refine ⟨a :: as, s', ?_, by simp [run, h1, h3], by rw [h4, hf]⟩
  intro b hb
  rcases List.mem_cons.1 hb with rfl | hb
  · exact hc
  · exact h2 b hb

private theorem check_fires {s : State} {t : Tid} {fs : List Frame} (hk : s.stk = .check :: fs) (ht : t ∈ s.recs) : CanFire cyc s t := by
  by_cases hc : cyc t
  · exact ⟨[.expire t], { s with st := .haveTimer, stk := .cb t :: .check :: fs, fired := s.fired ++ [t] }, by simp [Act.calm],
      by simp [run, step, hk, ht, hc], rfl⟩
  · exact ⟨[.expire t], { s with
        recs := s.recs.filter (· ≠ t), st := stAfter (s.recs.filter (· ≠ t)) .haveTimer
        stk := .cb t :: .check :: fs, fired := s.fired ++ [t] }, by simp [Act.calm],
      by simp [run, step, hk, ht, hc], rfl⟩

private theorem fires (n : Nat) : ∀ {s : State} {t : Tid}, s.stk.length = n → Base s → Inv s → t ∈ s.recs → CanFire cyc s t := by
  induction n with
  | zero =>
    intro s t hn hb h ht
    have hk : s.stk = [] := List.length_eq_zero_iff.1 hn
    have hne : s.recs ≠ [] := fun e => by rw [e] at ht; simp at ht
    have hj : 0 < s.jobs := by simpa [hk] using h.b hne
    have hw : ¬ s.st = .waiting := fun e => by have := h.a e; simp [hk] at this
    refine can_step (a := .runJob) rfl (s1 := { s with jobs := s.jobs - 1, stk := .check :: s.stk }) ?_ rfl (check_fires rfl ht)
    simp [step, idle, hk, hj, hw]
  | succ n ih =>
    intro s t hn hb h ht
    match hk : s.stk with
    | [] => simp [hk] at hn
    | .check :: fs => exact check_fires hk ht
    | .wait :: fs =>
      refine can_step (a := .wake) rfl (s1 := { s with stk := .check :: fs, st := .haveTimer }) ?_ rfl (check_fires rfl ht)
      simp [step, hk]
    | .cb u :: fs =>
      have h1 : step cyc s .ret = some { s with stk := fs } := by simp [step, hk]
      exact can_step rfl h1 rfl (ih (by simpa [hk] using hn) (base_step hb h1) (inv_step hb h (by simp) h1) ht)
    | .fn :: fs =>
      have h1 : step cyc s .ret = some (done s fs) := by simp [step, hk]
      obtain ⟨d1, _, d3, d⟩ := done_eq s fs
      refine can_step rfl h1 d3 ?_
      rcases d with ⟨gs, _, d4, _⟩ | ⟨d4, _⟩
      · exact check_fires d4 (by rw [d1]; exact ht)
      · exact ih (by rw [d4]; simpa [hk] using hn) (base_step hb h1) (inv_step hb h (by simp) h1) (by rw [d1]; exact ht)

/-- After any history `pre`, with any exceptions, after which no timer is running (so also from the start), and then any history in which exceptions come out only while no timer is running:
every running timer will still be called. -/
theorem can_fire_partial (pre as : List Act) (s s' : State) (t : Tid) (h1 : run cyc start pre = some s) (h2 : s.recs = [])
    (h3 : Careful cyc s as) (h4 : run cyc s as = some s') (ht : t ∈ s'.recs) : CanFire cyc s' t := by
  have hb := base_run pre base_start h1
  have hi : Inv s := ⟨fun hw => absurd hw (hb.c h2), fun hr => absurd h2 hr⟩
  exact fires _ rfl (base_run as hb h4) (inv_run as hb hi h3 h4) ht

private theorem careful_of_no_throw (as : List Act) (h : .throw ∉ as) : ∀ s, Careful cyc s as := by
  induction as with
  | nil => intro s; trivial
  | cons a as ih =>
    intro s
    exact ⟨fun e => absurd (by simp [e]) h, fun s' _ => ih (fun hm => h (by simp [hm])) s'⟩

/-- A run to use it on: a function throws while a timer waits, the timer is stopped, another one is started. -/
example : ∃ s s', run (fun _ => true) start [.runFn, .start 1, .ret, .runJob, .doze, .runFn, .throw, .runFn, .stop 1] = some s ∧ s.recs = [] ∧
    Careful (fun _ => true) s [.start 2, .ret, .runFn] ∧ run (fun _ => true) s [.start 2, .ret, .runFn] = some s' ∧ 2 ∈ s'.recs :=
  ⟨_, _, rfl, rfl, careful_of_no_throw _ (by decide) _, rfl, by decide⟩

/-! ## What exceptions do not change -/

/-- What a step does to the running timers and the calls. -/
private theorem step_effect {s s' : State} {a : Act} (hs : step cyc s a = some s') :
    (s'.recs = s.recs ∧ s'.fired = s.fired) ∨
    (∃ u, a = .start u ∧ s'.recs = (if u ∈ s.recs then s.recs else s.recs ++ [u]) ∧ s'.fired = s.fired) ∨
    (∃ u, a = .stop u ∧ s'.recs = s.recs.filter (· ≠ u) ∧ s'.fired = s.fired) ∨
    (∃ u, a = .expire u ∧ u ∈ s.recs ∧ s'.fired = s.fired ++ [u] ∧ s'.recs = if cyc u then s.recs else s.recs.filter (· ≠ u)) := by
  cases a with
  | start t =>
    simp only [step] at hs
    split at hs <;> (try split at hs) <;> simp only [Option.some.injEq, reduceCtorEq] at hs
    subst hs; exact .inr (.inl ⟨t, rfl, rfl, rfl⟩)
  | stop t =>
    simp only [step] at hs
    split at hs <;> (try split at hs) <;> (try simp only [reduceCtorEq] at hs)
    split at hs <;> simp only [Option.some.injEq] at hs <;> subst hs
    · exact .inr (.inr (.inl ⟨t, rfl, rfl, rfl⟩))
    · exact .inl ⟨rfl, rfl⟩
  | expire t =>
    simp only [step] at hs
    split at hs <;> (try split at hs) <;> (try simp only [reduceCtorEq] at hs)
    rename_i hm
    split at hs <;> simp only [Option.some.injEq] at hs <;> subst hs <;> rename_i hc <;>
      exact .inr (.inr (.inr ⟨t, rfl, hm, rfl, by simp [hc]⟩))
  | runFn =>
    simp only [step] at hs; split at hs <;> simp only [Option.some.injEq, reduceCtorEq] at hs
    subst hs; exact .inl ⟨rfl, rfl⟩
  | runJob =>
    simp only [step] at hs; split at hs <;> (try simp only [reduceCtorEq] at hs)
    split at hs <;> simp only [Option.some.injEq] at hs <;> subst hs
    · obtain ⟨d1, _, d3, _⟩ := done_eq { s with jobs := s.jobs - 1 } s.stk
      exact .inl ⟨d1, d3⟩
    · exact .inl ⟨rfl, rfl⟩
  | ret =>
    simp only [step] at hs; split at hs <;> simp only [Option.some.injEq, reduceCtorEq] at hs <;> subst hs
    · obtain ⟨d1, _, d3, _⟩ := done_eq s ‹_›; exact .inl ⟨d1, d3⟩
    · exact .inl ⟨rfl, rfl⟩
  | throw =>
    simp only [step] at hs
    split at hs <;> (try split at hs) <;> simp only [Option.some.injEq, reduceCtorEq] at hs
    subst hs; exact .inl ⟨rfl, rfl⟩
  | leave =>
    simp only [step] at hs
    split at hs <;> (try split at hs) <;> simp only [Option.some.injEq, reduceCtorEq] at hs
    subst hs; obtain ⟨d1, _, d3, _⟩ := done_eq s ‹_›; exact .inl ⟨d1, d3⟩
  | doze =>
    simp only [step] at hs
    split at hs <;> (try split at hs) <;> simp only [Option.some.injEq, reduceCtorEq] at hs
    subst hs; exact .inl ⟨rfl, rfl⟩
  | wake =>
    simp only [step] at hs
    split at hs <;> simp only [Option.some.injEq, reduceCtorEq] at hs
    subst hs; exact .inl ⟨rfl, rfl⟩

private theorem silent_run (t : Tid) (as : List Act) : ∀ {s s' : State}, t ∉ s.recs → .start t ∉ as → run cyc s as = some s' →
    s'.fired.count t = s.fired.count t := by
  induction as with
  | nil => intro s s' _ _ hr; simp only [run, Option.some.injEq] at hr; rw [hr]
  | cons a as ih =>
    intro s s' h ha hr
    simp only [run, Option.bind_eq_some_iff] at hr
    obtain ⟨s1, h1, h2⟩ := hr
    have hne : a ≠ .start t := fun e => ha (by simp [e])
    have ha' : .start t ∉ as := fun hm => ha (by simp [hm])
    rcases step_effect h1 with ⟨e1, e2⟩ | ⟨u, e, e1, e2⟩ | ⟨u, e, e1, e2⟩ | ⟨u, e, hu, e2, e1⟩
    · rw [ih (by rw [e1]; exact h) ha' h2, e2]
    · have hut : t ≠ u := fun he => hne (by rw [e, he])
      rw [ih (by rw [e1]; split <;> simp [h, hut]) ha' h2, e2]
    · rw [ih (by rw [e1]; simp [h]) ha' h2, e2]
    · have hut : u ≠ t := fun he => h (he ▸ hu)
      rw [ih (by rw [e1]; split <;> simp [h]) ha' h2, e2, List.count_append, List.count_singleton]
      simp [hut]

/-- Whatever exceptions come out: after `stop` a timer is not called until it is started again. -/
theorem stopped_not_called (pre as : List Act) (t : Tid) (s s' : State) (ha : .start t ∉ as)
    (h1 : run cyc start (pre ++ [.stop t]) = some s) (h2 : run cyc s as = some s') : s'.fired.count t = s.fired.count t := by
  have split_run : ∀ (l m : List Act) (x : State), run cyc x (l ++ m) = (run cyc x l).bind fun y => run cyc y m := by
    intro l m; induction l with
    | nil => intro x; rfl
    | cons a l ih => intro x; simp [run, ih, Option.bind_assoc]
  rw [split_run, Option.bind_eq_some_iff] at h1
  obtain ⟨s0, _, h1⟩ := h1
  simp only [run, Option.bind_eq_some_iff, Option.some.injEq] at h1
  obtain ⟨s1, h1, rfl⟩ := h1
  refine silent_run t as ?_ ha h2
  simp only [step] at h1
  split at h1 <;> (try split at h1) <;> (try simp only [reduceCtorEq] at h1)
  split at h1 <;> simp only [Option.some.injEq] at h1 <;> subst h1
  · simp
  · assumption

/-- Whatever exceptions come out: a timer that is not cyclic is called at most as often as it was started, so a timer never started is never called. -/
theorem called_at_most_started (as : List Act) (t : Tid) (s : State) (hc : cyc t = false) (hr : run cyc start as = some s) :
    s.fired.count t ≤ as.count (.start t) := by
  suffices ∀ (as : List Act) (s0 s : State), run cyc s0 as = some s →
      s.fired.count t + s.recs.count t ≤ s0.fired.count t + s0.recs.count t + as.count (.start t) by
    have := this as start s hr
    simp [start] at this
    omega
  clear hr as s
  intro as
  induction as with
  | nil => intro s0 s hr; simp only [run, Option.some.injEq] at hr; subst hr; simp
  | cons a as ih =>
    intro s0 s hr
    simp only [run, Option.bind_eq_some_iff] at hr
    obtain ⟨s1, h1, h2⟩ := hr
    rw [List.count_cons]
    rcases step_effect h1 with ⟨e1, e2⟩ | ⟨u, e, e1, e2⟩ | ⟨u, e, e1, e2⟩ | ⟨u, e, hu, e2, e1⟩
    · have := ih s1 s h2
      rw [e1, e2] at this; omega
    · subst e
      have := ih s1 s h2
      rw [e2] at this
      have hle : s1.recs.count t ≤ s0.recs.count t + (if (Act.start u == Act.start t) = true then 1 else 0) := by
        rw [e1]; split
        · omega
        · rw [List.count_append, List.count_singleton]; by_cases h : u = t <;> simp [h]
      omega
    · have := ih s1 s h2
      have hle : s1.recs.count t ≤ s0.recs.count t := by rw [e1]; exact (List.filter_sublist).count_le _
      rw [e2] at this; omega
    · have := ih s1 s h2
      rw [e2, List.count_append, List.count_singleton] at this
      by_cases h : u = t
      · subst h
        have h0 : s1.recs.count u = 0 := by rw [e1]; simp only [hc]; exact List.count_eq_zero.2 (by simp)
        have h1 : 1 ≤ s0.recs.count u := List.one_le_count_iff.2 hu
        simp at this; omega
      · have hle : s1.recs.count t ≤ s0.recs.count t := by
          rw [e1]; split
          · omega
          · exact (List.filter_sublist).count_le _
        simp [h] at this; omega

example : ∃ s, run (fun _ => false) start [.runFn, .start 1, .start 1, .throw, .runJob, .doze, .runJob, .expire 1, .ret] = some s ∧
    s.fired.count 1 = 1 := ⟨_, rfl, by decide⟩

example : ∃ s s', run (fun _ => true) start ([.runFn, .start 1, .start 2, .ret, .runJob, .expire 1] ++ [.stop 1]) = some s ∧
    run (fun _ => true) s [.ret, .expire 2, .ret, .expire 2] = some s' ∧ s'.fired = [1, 2, 2] := ⟨_, _, rfl, rfl, by decide⟩

/-! ## Refutations -/

private structure Dead (s : State) : Prop where
  st : s.st = .waiting
  stk : ∀ f ∈ s.stk, f.isUser = true
  recs : s.recs ≠ []

private theorem dead_step {s s' : State} {a : Act} (h : Dead s) (ha : ∀ t, a ≠ .stop t) (hs : step cyc s a = some s') :
    Dead s' ∧ s'.fired = s.fired := by
  obtain ⟨h1, h2, h3⟩ := h
  have nocheck : ∀ {fs}, s.stk ≠ .check :: fs := fun e => by have := h2 .check (by simp [e]); simp [Frame.isUser] at this
  have nowait : ∀ {fs}, s.stk ≠ .wait :: fs := fun e => by have := h2 .wait (by simp [e]); simp [Frame.isUser] at this
  have hdone : ∀ (s0 : State) (fs : List Frame), (∀ f ∈ fs, f.isUser = true) → done s0 fs = { s0 with stk := fs } := by
    intro s0 fs hf
    unfold done
    split
    · have := hf .wait (by simp); simp [Frame.isUser] at this
    · rfl
  cases a with
  | start t =>
    simp only [step] at hs
    split at hs <;> (try split at hs) <;> simp only [Option.some.injEq, reduceCtorEq] at hs
    subst hs
    refine ⟨⟨h1, h2, ?_⟩, rfl⟩
    simp only; split
    · exact h3
    · simp
  | stop t => exact absurd rfl (ha t)
  | runFn =>
    simp only [step] at hs; split at hs <;> simp only [Option.some.injEq, reduceCtorEq] at hs
    subst hs
    exact ⟨⟨h1, by simpa [Frame.isUser] using h2, h3⟩, rfl⟩
  | runJob =>
    simp only [step] at hs; split at hs <;> (try simp only [reduceCtorEq] at hs)
    simp only [h1, Option.some.injEq] at hs
    rw [hdone _ _ h2] at hs
    subst hs
    exact ⟨⟨rfl, h2, h3⟩, rfl⟩
  | ret =>
    simp only [step] at hs; split at hs <;> simp only [Option.some.injEq, reduceCtorEq] at hs
    · rename_i fs hk
      have hf : ∀ f ∈ fs, f.isUser = true := fun f hf => h2 f (by simp [hk, hf])
      rw [hdone _ _ hf] at hs; subst hs
      exact ⟨⟨h1, hf, h3⟩, rfl⟩
    · rename_i t fs hk
      subst hs
      exact ⟨⟨h1, fun f hf => h2 f (by simp [hk, hf]), h3⟩, rfl⟩
  | throw =>
    simp only [step] at hs
    split at hs <;> (try split at hs) <;> simp only [Option.some.injEq, reduceCtorEq] at hs
    subst hs; exact ⟨⟨h1, by simp, h3⟩, rfl⟩
  | leave => simp only [step] at hs; first | (simp at hs; done) | (split at hs <;> first | exact absurd ‹_› nocheck | simp at hs)
  | doze => simp only [step] at hs; first | (simp at hs; done) | (split at hs <;> first | exact absurd ‹_› nocheck | simp at hs)
  | wake => simp only [step] at hs; first | (simp at hs; done) | (split at hs <;> first | exact absurd ‹_› nowait | simp at hs)
  | expire t => simp only [step] at hs; first | (simp at hs; done) | (split at hs <;> first | exact absurd ‹_› nocheck | simp at hs)

private theorem dead_run (as : List Act) : ∀ {s s' : State}, Dead s → (∀ t, .stop t ∉ as) → run cyc s as = some s' → s'.fired = s.fired := by
  induction as with
  | nil => intro s s' _ _ hr; simp only [run, Option.some.injEq] at hr; rw [hr]
  | cons a as ih =>
    intro s s' h ha hr
    simp only [run, Option.bind_eq_some_iff] at hr
    obtain ⟨s1, h1, h2⟩ := hr
    obtain ⟨d, f⟩ := dead_step h (fun t e => ha t (by simp [e])) h1
    rw [ih d (fun t hm => ha t (by simp [hm])) h2, f]

/-- In every state in which `checkAllTimers` can wait: it waits, a function comes and throws.  Then no timer of the thread is called any more, whatever is started, as long as nobody stops
one. -/
theorem silent_after_function (s s' : State) (as : List Act) (ha : ∀ t, .stop t ∉ as)
    (hr : run cyc s ([.doze, .runFn, .throw] ++ as) = some s') : s'.fired = s.fired := by
  simp only [List.cons_append, List.nil_append, run, Option.bind_eq_some_iff] at hr
  obtain ⟨s1, h1, s2, h2, s3, h3, h4⟩ := hr
  simp only [step] at h1
  split at h1 <;> (try split at h1) <;> simp only [Option.some.injEq, reduceCtorEq] at h1
  subst h1
  simp only [step, idle, if_true, Option.some.injEq] at h2
  subst h2
  simp only [step, Frame.isUser, if_true, Option.some.injEq] at h3
  subst h3
  rename_i hne
  exact dead_run as (s := { s with stk := [], st := .waiting }) ⟨rfl, by simp, hne⟩ ha h4

/-- Witness: timer 1 waits, a function throws; later timer 2 is started and everything queued is executed. Both run, neither can be called. -/
theorem all_timers_lost : ∃ s, run (fun _ => false) start
      [.runFn, .start 1, .ret, .runJob, .doze, .runFn, .throw, .runFn, .start 2, .ret, .runJob] = some s ∧
    1 ∈ s.recs ∧ 2 ∈ s.recs ∧ ¬ CanFire (fun _ => false) s 1 ∧ ¬ CanFire (fun _ => false) s 2 := by
  refine ⟨{ recs := [1, 2], st := .waiting, jobs := 0, stk := [], fired := [] }, by decide, by decide, by decide, ?_, ?_⟩ <;>
  · rintro ⟨as, s', hc, hr, hf⟩
    have := dead_run as (s := { recs := [1, 2], st := .waiting, jobs := 0, stk := [], fired := [] }) ⟨rfl, by simp, by simp⟩
      (fun t hm => by simpa [Act.calm] using hc _ hm) hr
    rw [this] at hf
    simp at hf

private structure Asleep (s : State) : Prop where
  jobs : s.jobs = 0
  stk : ∀ f ∈ s.stk, f.isUser = true

private theorem asleep_step {s s' : State} {a : Act} (h : Asleep s) (ha : ∀ t, a ≠ .start t) (hs : step cyc s a = some s') :
    Asleep s' ∧ s'.fired = s.fired := by
  obtain ⟨h1, h2⟩ := h
  have nocheck : ∀ {fs}, s.stk ≠ .check :: fs := fun e => by have := h2 .check (by simp [e]); simp [Frame.isUser] at this
  have nowait : ∀ {fs}, s.stk ≠ .wait :: fs := fun e => by have := h2 .wait (by simp [e]); simp [Frame.isUser] at this
  cases a with
  | start t => exact absurd rfl (ha t)
  | stop t =>
    simp only [step] at hs
    split at hs <;> (try split at hs) <;> (try simp only [reduceCtorEq] at hs)
    split at hs <;> simp only [Option.some.injEq] at hs <;> subst hs <;> exact ⟨⟨h1, h2⟩, rfl⟩
  | runFn =>
    simp only [step] at hs; split at hs <;> simp only [Option.some.injEq, reduceCtorEq] at hs
    subst hs
    exact ⟨⟨h1, by simpa [Frame.isUser] using h2⟩, rfl⟩
  | runJob => simp [step, h1] at hs
  | ret =>
    simp only [step] at hs; split at hs <;> simp only [Option.some.injEq, reduceCtorEq] at hs
    · rename_i fs hk
      have hf : ∀ f ∈ fs, f.isUser = true := fun f hf => h2 f (by simp [hk, hf])
      obtain ⟨_, d2, d3, d⟩ := done_eq s fs
      subst hs
      rcases d with ⟨gs, e, _, _⟩ | ⟨d4, _⟩
      · have := hf .wait (by simp [e]); simp [Frame.isUser] at this
      · exact ⟨⟨by rw [d2, h1], by rw [d4]; exact hf⟩, d3⟩
    · rename_i t fs hk
      subst hs
      exact ⟨⟨h1, fun f hf => h2 f (by simp [hk, hf])⟩, rfl⟩
  | throw =>
    simp only [step] at hs
    split at hs <;> (try split at hs) <;> simp only [Option.some.injEq, reduceCtorEq] at hs
    subst hs; exact ⟨⟨h1, by simp⟩, rfl⟩
  | leave => simp only [step] at hs; first | (simp at hs; done) | (split at hs <;> first | exact absurd ‹_› nocheck | simp at hs)
  | doze => simp only [step] at hs; first | (simp at hs; done) | (split at hs <;> first | exact absurd ‹_› nocheck | simp at hs)
  | wake => simp only [step] at hs; first | (simp at hs; done) | (split at hs <;> first | exact absurd ‹_› nowait | simp at hs)
  | expire t => simp only [step] at hs; first | (simp at hs; done) | (split at hs <;> first | exact absurd ‹_› nocheck | simp at hs)

private theorem asleep_run (as : List Act) : ∀ {s s' : State}, Asleep s → (∀ t, .start t ∉ as) → run cyc s as = some s' → s'.fired = s.fired := by
  induction as with
  | nil => intro s s' _ _ hr; simp only [run, Option.some.injEq] at hr; rw [hr]
  | cons a as ih =>
    intro s s' h ha hr
    simp only [run, Option.bind_eq_some_iff] at hr
    obtain ⟨s1, h1, h2⟩ := hr
    obtain ⟨d, f⟩ := asleep_step h (fun t e => ha t (by simp [e])) h1
    rw [ih d (fun t hm => ha t (by simp [hm])) h2, f]

/-- A callback is called and throws when nothing else about timers is queued.  Then no timer of the thread is called until one is started. -/
theorem silent_after_callback (s s' : State) (t : Tid) (as : List Act) (hj : s.jobs = 0) (ha : ∀ u, .start u ∉ as)
    (hr : run cyc s ([.expire t, .throw] ++ as) = some s') : s'.fired = s.fired ++ [t] := by
  simp only [List.cons_append, List.nil_append, run, Option.bind_eq_some_iff] at hr
  obtain ⟨s1, h1, s3, h3, h4⟩ := hr
  have hs1 : s1.jobs = 0 ∧ s1.fired = s.fired ++ [t] := by
    simp only [step] at h1
    split at h1 <;> (try split at h1) <;> (try simp only [reduceCtorEq] at h1)
    split at h1 <;> simp only [Option.some.injEq] at h1 <;> subst h1 <;> exact ⟨hj, rfl⟩
  simp only [step] at h3
  split at h3 <;> (try split at h3) <;> simp only [Option.some.injEq, reduceCtorEq] at h3
  subst h3
  rw [asleep_run as (s := { s1 with stk := [] }) ⟨hs1.1, by simp⟩ ha h4]
  exact hs1.2

/-- Witness: the callback of timer 1 throws; timer 2 runs and cannot be called. -/
theorem other_timers_lost : ∃ s, run (fun _ => false) start
      [.runFn, .start 1, .start 2, .ret, .runJob, .doze, .runJob, .expire 1, .throw] = some s ∧
    s.recs = [2] ∧ ¬ CanFire (fun _ => false) s 2 := by
  refine ⟨{ recs := [2], st := .haveTimer, jobs := 0, stk := [], fired := [1] }, by decide, by decide, ?_⟩
  rintro ⟨as, s', hc, hr, hf⟩
  have := asleep_run as (s := { recs := [2], st := .haveTimer, jobs := 0, stk := [], fired := [1] }) ⟨rfl, by simp⟩
    (fun t hm => by simpa [Act.calm] using hc _ hm) hr
  rw [this] at hf
  simp at hf

end Maf.Tth
