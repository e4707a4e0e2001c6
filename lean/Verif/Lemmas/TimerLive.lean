import Verif.Lemmas.Timer
/-
A running timer is never forgotten, and it can always fire once it is due.
-/
namespace Maf.Tmr

/-- `checkAllTimers` is in progress in this frame. -/
def Frame.checks : Frame → Bool
  | .user => false
  | _ => true

def Frame.waits : Frame → Bool
  | .waiting .. | .held .. => true
  | _ => false

/-- The state is `waiting` only while some call waits. -/
def StI (s : State) : Prop := s.st = .waiting → ∃ f ∈ s.stack, f.waits = true

/-- The top frame is not one that is running a job, and the deadline waited for is the timer's. -/
def TopI (s : State) : Prop := ∀ f fs, s.stack = f :: fs → (∀ i t, f ≠ .held i t) ∧ ∀ i dl, f = .waiting i dl → dl = (s.data i).deadline

/-- Every call that runs a job has the job, or what the job called, right above it. -/
def Attended (s : State) : Prop := s.records ≠ [] → Job.check ∈ s.jobs ∨ ∃ f ∈ s.stack, f.checks = true

theorem touch_waits (f : Frame) : f.touch.waits = f.waits := by cases f <;> rfl
theorem touch_checks (f : Frame) : f.touch.checks = f.checks := by cases f <;> rfl

theorem ret_checks {s : State} {fs : List Frame} (h : ∃ f ∈ fs, f.checks = true) : ∃ f ∈ (ret s fs).stack, f.checks = true := by
  unfold ret
  split
  · exact ⟨_, List.mem_cons_self, rfl⟩
  · exact h

theorem ret_waits {s : State} {fs : List Frame} (hst : (ret s fs).st = .waiting) : s.st = .waiting ∧ (ret s fs).stack = fs := by
  unfold ret at hst ⊢
  split at hst
  · cases hst
  · exact ⟨hst, rfl⟩

theorem begin_checks {s : State} {fs : List Frame} {j : Job} (h : ∃ f ∈ fs, f.checks = true) : ∃ f ∈ (begin s fs j).stack, f.checks = true := by
  rcases begin_stack s fs j with e | e | e
  · obtain ⟨f, hf, k⟩ := h; exact ⟨f, by rw [e]; simp [hf], k⟩
  · exact ⟨.check, by rw [e]; simp, rfl⟩
  · rw [e]; exact ret_checks h

theorem begin_waits {s : State} {fs : List Frame} {j : Job} (hst : (begin s fs j).st = .waiting) : s.st = .waiting ∧ ∀ f ∈ fs, f ∈ (begin s fs j).stack := by
  unfold begin at hst ⊢
  split at hst
  · exact ⟨hst, fun f hf => by simp [hf]⟩
  · have := ret_waits hst; exact ⟨this.1, fun f hf => by simp [this.2, hf]⟩
  · split at hst
    · next e => have := ret_waits hst; exact ⟨this.1, fun f hf => by split <;> first | contradiction | (rw [this.2]; exact hf)⟩
    · next e => exact ⟨hst, fun f hf => by split <;> first | contradiction | exact List.mem_cons_of_mem _ hf⟩

theorem op_st {s s' : State} {r : List Tm} {o : Op} (hs : operate s r o = some s') : s'.st = .waiting → s.st = .waiting := by
  intro hw
  cases o <;> simp only [operate] at hs <;> repeat' split at hs
  all_goals (first | (cases hs; done) | cases hs)
  all_goals (try simpa using hw)
  all_goals (simp only [noteEmpty] at hw; repeat' split at hw)
  all_goals (first | (cases hw; done) | simp_all)

theorem StI_step {s s' : State} {a : Act} (h : StI s) (hs : step s a = some s') : StI s' := by
  intro hw
  cases a with
  | op o r =>
    simp only [step] at hs
    split at hs
    · cases hs
    split at hs
    · obtain ⟨f, hf, k⟩ := h (op_st (s := touch s) hs hw)
      rw [op_stack hs]
      exact ⟨f.touch, List.mem_map.2 ⟨f, hf, rfl⟩, by rw [touch_waits]; exact k⟩
    · cases hs
  | take =>
    simp only [step] at hs
    repeat' split at hs
    all_goals (first | (cases hs; done) | cases hs)
    all_goals (
      have := begin_waits hw
      obtain ⟨f, hf, k⟩ := h this.1
      rw [‹s.stack = _›] at hf
      exact ⟨f, this.2 f hf, k⟩)
  | waitJob =>
    simp only [step] at hs
    repeat' split at hs
    all_goals (first | (cases hs; done) | cases hs)
    have := begin_waits hw
    exact ⟨_, this.2 _ List.mem_cons_self, rfl⟩
  | ret =>
    simp only [step] at hs
    repeat' split at hs
    all_goals (first | (cases hs; done) | cases hs)
    have := ret_waits hw
    obtain ⟨f, hf, k⟩ := h this.1
    rw [‹s.stack = _›] at hf
    rw [this.2]
    rcases List.mem_cons.1 hf with rfl | hf
    · cases k
    · exact ⟨f, hf, k⟩
  | look =>
    simp only [step] at hs
    repeat' split at hs
    all_goals (first | (cases hs; done) | cases hs)
    · have := ret_waits hw
      obtain ⟨f, hf, k⟩ := h this.1
      rw [‹s.stack = _›] at hf
      rw [this.2]
      rcases List.mem_cons.1 hf with rfl | hf
      · cases k
      · exact ⟨f, hf, k⟩
    · obtain ⟨f, hf, k⟩ := h hw
      rw [‹s.stack = _›] at hf
      rcases List.mem_cons.1 hf with rfl | hf
      · cases k
      · exact ⟨f, by simp [hf], k⟩
    · exact ⟨_, List.mem_cons_self, rfl⟩
  | waitOut =>
    simp only [step] at hs
    repeat' split at hs
    all_goals (first | (cases hs; done) | cases hs)
    cases hw
  | fire r =>
    simp only [step] at hs
    repeat' split at hs
    all_goals (first | (cases hs; done) | cases hs)
    · have := ret_waits hw
      obtain ⟨f, hf, k⟩ := h this.1
      rw [‹s.stack = _›] at hf
      rw [this.2]
      rcases List.mem_cons.1 hf with rfl | hf
      · cases k
      · exact ⟨f, hf, k⟩
    · obtain ⟨f, hf, k⟩ := h hw
      rw [‹s.stack = _›] at hf
      rcases List.mem_cons.1 hf with rfl | hf
      · cases k
      · exact ⟨f, by simp [hf], k⟩
    · cases hw
    · exact h hw
    all_goals (try (cases hw; done))
    all_goals (simp only [noteEmpty] at hw; split at hw <;> cases hw)
  | post => simp only [step] at hs; split at hs <;> cases hs; simpa [StI] using h (by simpa using hw)
  | _ => simp only [step] at hs; split at hs <;> cases hs; exact h hw

theorem ret_top {s : State} {fs : List Frame} (hh : ∀ f gs, fs = f :: gs → f ≠ .waiting 0 0 ∧ f.deep = true) :
    ∀ f gs, (ret s fs).stack = f :: gs → (∀ i t, f ≠ .held i t) ∧ ∀ i dl, f ≠ .waiting i dl := by
  intro f gs e
  unfold ret at e
  split at e
  · cases e; simp
  · next hne =>
    simp only at e
    refine ⟨fun i t k => hne i t gs (by rw [e, k]), fun i dl k => ?_⟩
    have := (hh f gs e).2
    rw [k] at this; cases this

theorem TopI_step {s s' : State} {a : Act} (hn : NestI s) (h : TopI s) (hs : step s a = some s') : TopI s' := by
  have of : (∀ f gs, s'.stack = f :: gs → (∀ i t, f ≠ .held i t) ∧ ∀ i dl, f ≠ .waiting i dl) → TopI s' :=
    fun k f gs e => ⟨(k f gs e).1, fun i dl e' => absurd e' ((k f gs e).2 i dl)⟩
  have hret : ∀ f fs, s.stack = f :: fs → ∀ s0, ∀ g gs, (ret s0 fs).stack = g :: gs → (∀ i t, g ≠ .held i t) ∧ ∀ i dl, g ≠ .waiting i dl := by
    intro f fs hst s0
    apply ret_top
    intro g gs e
    have hd : g.deep = true := hn g (by rw [hst, e]; simp)
    refine ⟨?_, hd⟩
    rintro rfl; cases hd
  have hbegin : ∀ fs s0 j, (∀ g gs, (ret s0 fs).stack = g :: gs → (∀ i t, g ≠ .held i t) ∧ ∀ i dl, g ≠ .waiting i dl) →
      ∀ g gs, (begin s0 fs j).stack = g :: gs → (∀ i t, g ≠ .held i t) ∧ ∀ i dl, g ≠ .waiting i dl := by
    intro fs s0 j k g gs e
    rcases begin_stack s0 fs j with e' | e' | e' <;> rw [e'] at e
    · cases e; simp
    · cases e; simp
    · exact k g gs e
  cases a with
  | tick t => simp only [step] at hs; split at hs <;> cases hs; exact h
  | post => simp only [step] at hs; split at hs <;> cases hs; simpa [TopI] using h
  | stopProc => simp only [step] at hs; split at hs <;> cases hs; exact h
  | reuse => simp only [step] at hs; split at hs <;> cases hs; exact h
  | take =>
    simp only [step] at hs
    repeat' split at hs
    all_goals (first | (cases hs; done) | cases hs)
    · exact of (hbegin _ _ _ (by intro g gs e; simp [ret] at e))
    · exact of (hbegin _ _ _ (by intro g gs e; simp [ret] at e; obtain ⟨rfl, -⟩ := e; simp))
  | op o r =>
    simp only [step] at hs
    split at hs
    · cases hs
    split at hs
    · next fs hst =>
      refine of ?_
      rw [op_stack hs]
      intro f gs e
      simp [touch, hst, Frame.touch] at e
      obtain ⟨rfl, -⟩ := e; simp
    · cases hs
  | ret =>
    simp only [step] at hs
    repeat' split at hs
    all_goals (first | (cases hs; done) | cases hs)
    exact of (hret _ _ ‹_› _)
  | look =>
    simp only [step] at hs
    repeat' split at hs
    all_goals (first | (cases hs; done) | cases hs)
    · exact of (hret _ _ ‹_› _)
    · refine of ?_
      intro f gs e; cases e; simp
    · intro f gs e; cases e
      refine ⟨by simp, ?_⟩
      intro i dl e; cases e; rfl
  | waitJob =>
    simp only [step] at hs
    repeat' split at hs
    all_goals (first | (cases hs; done) | cases hs)
    refine of (hbegin _ _ _ ?_)
    intro g gs e; simp [ret] at e; obtain ⟨rfl, -⟩ := e; simp
  | waitOut =>
    simp only [step] at hs
    repeat' split at hs
    all_goals (first | (cases hs; done) | cases hs)
    refine of ?_
    intro f gs e; cases e; simp
  | fire r =>
    simp only [step] at hs
    repeat' split at hs
    all_goals (first | (cases hs; done) | cases hs)
    · exact of (hret _ _ ‹_› _)
    · refine of ?_
      intro f gs e; cases e; simp
    · refine of ?_
      intro f gs e; cases e; simp
    · exact h
    all_goals (
      refine of ?_
      intro f gs e; simp at e; obtain ⟨rfl, -⟩ := e; simp)

theorem op_jobs {s s' : State} {r : List Tm} {o : Op} (hs : operate s r o = some s') (hc : s.closed = false) :
    (∀ j ∈ s.jobs, j ∈ s'.jobs) ∧ (s'.records ≠ [] → s.records ≠ [] ∨ Job.check ∈ s'.jobs) := by
  cases o with
  | start i d =>
    simp only [operate] at hs
    split at hs <;> rw [Option.ite_none_right_eq_some] at hs <;> obtain ⟨-, hs⟩ := hs <;> cases hs <;> simp [push, hc] <;> intro j hj <;> simp [hj]
  | stop i =>
    simp only [operate] at hs
    repeat' split at hs
    all_goals (first | (cases hs; done) | cases hs)
    all_goals (try (refine ⟨fun j hj => hj, fun k => .inl k⟩; done))
    all_goals (refine ⟨?_, fun _ => .inl (by rw [‹s.records = _›]; simp)⟩)
    all_goals (intro j hj; try exact hj)
    · simp [push]; split <;> simp [hj]
    · simpa using hj
  | restart i =>
    simp only [operate] at hs
    split at hs
    · cases hs; exact ⟨fun j hj => hj, fun k => .inl k⟩
    · rw [Option.ite_none_right_eq_some] at hs
      obtain ⟨-, hs⟩ := hs
      cases hs; simp [push, hc]; intro j hj; simp [hj]
  | setCyclic i b => simp only [operate] at hs; cases hs; exact ⟨fun j hj => hj, fun k => .inl k⟩

theorem step_closed {s s' : State} {a : Act} (hs : step s a = some s') (h : Ev.procStopped ∉ s'.log) : s'.closed = true → s.closed = true := by
  intro hc
  cases a with
  | op o r =>
    simp only [step] at hs
    split at hs
    · cases hs
    split at hs
    · have : s'.closed = (touch s).closed := by
        cases o <;> simp only [operate] at hs <;> repeat' split at hs
        all_goals (first | (cases hs; done) | cases hs)
        all_goals (try simp)
        all_goals (try (split <;> simp))
      rw [this] at hc; exact hc
    · cases hs
  | stopProc =>
    simp only [step] at hs
    split at hs <;> cases hs
    simp at h
  | _ =>
    simp only [step] at hs
    repeat' split at hs
    all_goals (first | (cases hs; done) | cases hs)
    all_goals (first | simpa using hc | skip)

theorem Attended_step {s s' : State} {a : Act} (hc : s.closed = false) (hst : StI s) (h : Attended s) (hs : step s a = some s') (hns : a ≠ .stopProc) : Attended s' := by
  cases a with
  | stopProc => exact absurd rfl hns
  | op o r =>
    simp only [step] at hs
    split at hs
    · cases hs
    split at hs
    · intro hr
      have hj := op_jobs (s := touch s) hs hc
      rcases hj.2 hr with k | k
      · rcases h k with m | ⟨f, hf, m⟩
        · exact .inl (hj.1 _ m)
        · right
          rw [op_stack hs]
          exact ⟨f.touch, List.mem_map.2 ⟨f, hf, rfl⟩, by rw [touch_checks]; exact m⟩
      · exact .inl k
    · cases hs
  | tick t => simp only [step] at hs; split at hs <;> cases hs; exact h
  | reuse => simp only [step] at hs; split at hs <;> cases hs; exact h
  | post =>
    simp only [step] at hs; split at hs <;> cases hs
    intro hr
    rcases h (by simpa using hr) with m | m
    · left; simp [push, hc, m]
    · right; simpa using m
  | take =>
    simp only [step] at hs
    repeat' split at hs
    all_goals (first | (cases hs; done) | cases hs)
    all_goals (
      intro hr
      rcases h (by simpa using hr) with m | m
      · rw [‹s.jobs = _›] at m
        rcases List.mem_cons.1 m with e | m
        · subst e
          right
          simp only [begin]
          split
          · next e =>
            obtain ⟨f, hf, k⟩ := hst e
            rw [‹s.stack = _›] at hf
            exact ret_checks ⟨f, hf, by cases f <;> first | rfl | cases k⟩
          · exact ⟨_, List.mem_cons_self, rfl⟩
        · left; simpa using m
      · right
        rw [‹s.stack = _›] at m
        exact begin_checks m)
  | ret =>
    simp only [step] at hs
    repeat' split at hs
    all_goals (first | (cases hs; done) | cases hs)
    intro hr
    rcases h (by simpa using hr) with m | ⟨f, hf, m⟩
    · left; simpa using m
    · right
      rw [‹s.stack = _›] at hf
      rcases List.mem_cons.1 hf with rfl | hf
      · cases m
      · exact ret_checks ⟨f, hf, m⟩
  | look =>
    simp only [step] at hs
    repeat' split at hs
    all_goals (first | (cases hs; done) | cases hs)
    · intro hr; exact absurd (by simpa using ‹s.records = []›) hr
    · intro _; exact .inr ⟨_, List.mem_cons_self, rfl⟩
    · intro _; exact .inr ⟨_, List.mem_cons_self, rfl⟩
  | waitJob =>
    simp only [step] at hs
    repeat' split at hs
    all_goals (first | (cases hs; done) | cases hs)
    intro _
    right
    exact begin_checks ⟨_, List.mem_cons_self, rfl⟩
  | waitOut =>
    simp only [step] at hs
    repeat' split at hs
    all_goals (first | (cases hs; done) | cases hs)
    intro _; exact .inr ⟨_, List.mem_cons_self, rfl⟩
  | fire r =>
    simp only [step] at hs
    rw [hc] at hs
    simp only [Bool.false_eq_true, if_false] at hs
    repeat' split at hs
    all_goals (first | (cases hs; done) | cases hs)
    all_goals (intro hr)
    all_goals (first | exact h hr | (exact .inr ⟨.check, by simp, rfl⟩))

/-- The invariants of runs in which the processor is not stopped. -/
structure LiveI (s : State) : Prop where
  univ : Univ s
  nest : NestI s
  st : StI s
  top : TopI s
  open_ : s.closed = false
  att : Attended s

theorem LiveI_step {s s' : State} {a : Act} (h : LiveI s) (hs : step s a = some s') (hns : Ev.procStopped ∉ s'.log) : LiveI s' := by
  refine ⟨Univ_step h.univ hs, (step_stack h.nest hs).1, StI_step h.st hs, TopI_step h.nest h.top hs, ?_, ?_⟩
  · cases e : s'.closed with
    | false => rfl
    | true => have := step_closed hs hns e; rw [h.open_] at this; cases this
  · refine Attended_step h.open_ h.st h.att hs ?_
    rintro rfl
    simp only [step] at hs
    split at hs <;> cases hs
    simp at hns

theorem run_log {s s' : State} {as : List Act} (hr : run s as = some s') : ∃ b, s'.log = s.log ++ b := by
  induction as generalizing s with
  | nil => simp only [run] at hr; cases hr; exact ⟨[], by simp⟩
  | cons a as ih =>
    simp only [run] at hr
    cases hst : step s a with
    | none => rw [hst] at hr; cases hr
    | some s1 =>
      rw [hst] at hr
      obtain ⟨b, hb⟩ := ih hr
      obtain ⟨c, hc⟩ := step_log hst
      exact ⟨c ++ b, by rw [hb, hc]; simp⟩

theorem reach_live {as : List Act} {s : State} (hr : run init as = some s) (hns : Ev.procStopped ∉ s.log) : LiveI s := by
  have h0 : LiveI init := ⟨init_inv.1, init_inv.2.1, by simp [StI, init], by simp [TopI, init], rfl, by simp [Attended, init]⟩
  suffices ∀ as s0, LiveI s0 → run s0 as = some s → LiveI s from this as init h0 hr
  intro as
  induction as with
  | nil => intro s0 h e; simp only [run] at e; cases e; exact h
  | cons a as ih =>
    intro s0 h e
    simp only [run] at e
    cases hst : step s0 a with
    | none => rw [hst] at e; cases e
    | some s1 =>
      rw [hst] at e
      obtain ⟨b, hb⟩ := run_log (s := s1) e
      exact ih s1 (LiveI_step h hst (by rw [hb] at hns; simp at hns; exact hns.1)) e

/-! ### It can fire -/

/-- The heap algorithms have a result. -/
theorem order_exists (data : Tm → Data) (ok : Bool) (l : List Tm) : ∃ r, Order data ok l r := by
  suffices ∃ r, Order data true l r by
    obtain ⟨r, h⟩ := this
    exact ⟨r, h.1, fun _ => h.2 rfl⟩
  induction l with
  | nil => exact ⟨[], .refl _, by simp⟩
  | cons x l ih =>
    obtain ⟨r, hp, hm⟩ := ih
    cases r with
    | nil => exact ⟨[x], hp.cons x, by simp⟩
    | cons y r =>
      have hy := hm rfl y rfl
      by_cases hxy : (data x).deadline ≤ (data y).deadline
      · refine ⟨x :: y :: r, hp.cons x, fun _ f hf j hj => ?_⟩
        simp only [List.head?_cons, Option.mem_def, Option.some.injEq] at hf; subst hf
        rcases List.mem_cons.1 hj with rfl | hj
        · exact Nat.le_refl _
        · exact Nat.le_trans hxy (hy j hj)
      · refine ⟨y :: x :: r, (List.Perm.swap x y r).trans (hp.cons x), fun _ f hf j hj => ?_⟩
        simp only [List.head?_cons, Option.mem_def, Option.some.injEq] at hf; subst hf
        rcases List.mem_cons.1 hj with rfl | hj
        · exact Nat.le_refl _
        · rcases List.mem_cons.1 hj with rfl | hj
          · exact Nat.le_of_lt (Nat.lt_of_not_le hxy)
          · exact hy j (by simp [hj])

/-- Steps of the processor's own thread, with no new timer operations. -/
def Act.own : Act → Bool
  | .take | .ret | .look | .waitJob | .waitOut | .fire _ => true
  | _ => false

/-- The thread can get to a point where a timer's callback is called. -/
def CanFire (s : State) : Prop := ∃ as s' pre i dl c, (∀ a ∈ as, a.own = true) ∧ run s as = some s' ∧ s'.log = s.log ++ pre ++ [.fired i s.now dl c] ∧ ∀ e ∈ pre, ∀ j t d k, e ≠ .fired j t d k

theorem CanFire.after {s s1 : State} {a : Act} (ha : a.own = true) (hs : step s a = some s1) (hl : ∃ pre, s1.log = s.log ++ pre ∧ ∀ e ∈ pre, ∀ j t d k, e ≠ .fired j t d k) (hnow : s1.now = s.now) (h : CanFire s1) : CanFire s := by
  obtain ⟨as, s', pre, i, dl, c, ho, hr, hlog, hp⟩ := h
  obtain ⟨pre0, hl, hp0⟩ := hl
  refine ⟨a :: as, s', pre0 ++ pre, i, dl, c, ?_, by simp only [run, hs]; exact hr, by rw [hlog, hl, hnow]; simp, ?_⟩
  · intro b hb
    rcases List.mem_cons.1 hb with rfl | hb
    · exact ha
    · exact ho b hb
  · intro e he
    rcases List.mem_append.1 he with he | he
    · exact hp0 e he
    · exact hp e he

theorem CanFire.quiet {s s1 : State} {a : Act} (ha : a.own = true) (hs : step s a = some s1) (hl : s1.log = s.log) (hnow : s1.now = s.now) (h : CanFire s1) : CanFire s :=
  h.after ha hs ⟨[], by rw [hl]; simp, by simp⟩ hnow

/-- Just after the wait, for a due timer. -/
theorem fires_now {s : State} {i : Tm} {t : Bool} {fs : List Frame} (hub : s.ub = false) (hc : s.closed = false) (hst : s.stack = .waited i t :: fs)
    (hrun : (s.data i).running = true) (hdl : (s.data i).deadline ≤ s.now) (hne : s.records ≠ []) : CanFire s := by
  obtain ⟨f, rest, hrec⟩ := List.exists_cons_of_ne_nil hne
  have key : ∃ r s', step s (.fire r) = some s' ∧ s'.log = s.log ++ ((if t then [Ev.overran i] else []) ++ [.fired i s.now (s.data i).deadline (s.data i).cyclic]) := by
    cases hcy : (s.data i).cyclic with
    | true =>
      obtain ⟨r, hr⟩ := order_exists (upd s.data f { s.data f with deadline := (s.data f).deadline + (s.data f).duration }) s.heapOk (f :: rest)
      refine ⟨r, ?_⟩
      simp only [step, hub, hc, hst, Bool.false_eq_true, if_false, Nat.not_lt.2 hdl, hrun, hrec, hcy, if_true, if_pos hr, reduceCtorEq]
      exact ⟨_, rfl, rfl⟩
    | false =>
      obtain ⟨r, hr⟩ := order_exists (upd s.data i { s.data i with running := false }) s.heapOk rest
      refine ⟨r, ?_⟩
      simp only [hcy] at hr
      simp only [step, hub, hc, hst, Bool.false_eq_true, if_false, Nat.not_lt.2 hdl, hrun, hrec, hcy, if_true, reduceCtorEq]
      rw [if_pos hr]
      exact ⟨_, rfl, by simp⟩
  obtain ⟨r, s', hs, hl⟩ := key
  refine ⟨[.fire r], s', if t then [Ev.overran i] else [], i, (s.data i).deadline, (s.data i).cyclic, by simp [Act.own], by simp [run, hs], by rw [hl, ← List.append_assoc], ?_⟩
  intro e he
  cases t <;> simp at he
  subst he; simp

/-- At the head of the loop, with a due timer in front. -/
theorem look_fires {s : State} {fs : List Frame} {i : Tm} {rest : List Tm} (hub : s.ub = false) (hc : s.closed = false) (hst : s.stack = .check :: fs)
    (hrec : s.records = i :: rest) (hrun : (s.data i).running = true) (hdl : (s.data i).deadline ≤ s.now) : CanFire s := by
  refine CanFire.after (a := .look) (s1 := { s with stack := .waited i false :: fs, log := s.log ++ [.picked i] }) rfl ?_ ⟨[.picked i], rfl, by simp⟩ rfl ?_
  · simp [step, hub, hst, hrec, hdl]
  · exact fires_now (i := i) (t := false) hub hc rfl hrun hdl (by simp [hrec])

theorem begin_length (s : State) (fs : List Frame) (j : Job) : (begin s fs j).stack.length ≤ fs.length + 1 := by
  rcases begin_stack s fs j with e | e | e <;> rw [e]
  · simp
  · simp
  · rcases ret_stack s fs with e | ⟨i, t, gs, rfl, e⟩ <;> rw [e] <;> simp

theorem can_fire : ∀ (n : Nat) (s : State), 2 * s.jobs.length + s.stack.length ≤ n → Ev.procStopped ∉ s.log → Calm s.log → LiveI s → CalmI s →
    (∃ i, (s.data i).running = true ∧ (s.data i).deadline ≤ s.now) → CanFire s := by
  intro n
  induction n with
  | zero =>
    intro s hn hns hc hl hcalm ⟨i, hi, _⟩
    have hmem := (hcalm.mem i).2 hi
    rcases hl.att (by intro e; rw [e] at hmem; cases hmem) with k | ⟨f, hf, -⟩
    · have : s.jobs = [] := List.length_eq_zero_iff.1 (by omega)
      rw [this] at k; cases k
    · have : s.stack = [] := List.length_eq_zero_iff.1 (by omega)
      rw [this] at hf; cases hf
  | succ n ih =>
    intro s hn hns hc hl hcalm ⟨i, hi, hdl⟩
    have hmem := (hcalm.mem i).2 hi
    have hne : s.records ≠ [] := by intro e; rw [e] at hmem; cases hmem
    obtain ⟨f, rest, hrec⟩ := List.exists_cons_of_ne_nil hne
    have hfrun : (s.data f).running = true := (hcalm.mem f).1 (by rw [hrec]; simp)
    have hfdl : (s.data f).deadline ≤ s.now := Nat.le_trans (hcalm.min f (by rw [hrec]; rfl) i hmem) hdl
    have go : ∀ a s1, a.own = true → step s a = some s1 → s1.log = s.log → s1.data = s.data → s1.now = s.now → 2 * s1.jobs.length + s1.stack.length ≤ n → CanFire s := by
      intro a s1 ha hs hlog hd hnow hlen
      have hl1 := LiveI_step hl hs (by rw [hlog]; exact hns)
      have hc1 := CalmI_step hl.univ hl1.univ hl.nest hcalm hs (by rw [hlog]; exact hc)
      exact CanFire.quiet ha hs hlog hnow (ih s1 hlen (by rw [hlog]; exact hns) (by rw [hlog]; exact hc) hl1 hc1 ⟨i, by rw [hd]; exact hi, by rw [hd, hnow]; exact hdl⟩)
    cases hst : s.stack with
    | nil =>
      rcases hl.att hne with k | ⟨f, hf, -⟩
      · obtain ⟨j, js, hj⟩ := List.exists_cons_of_ne_nil (List.ne_nil_of_mem k)
        refine go .take (begin { s with jobs := js } [] j) rfl ?_ (by simp) (by simp) (by simp) ?_
        · simp [step, hcalm.ub, hl.open_, hj, hst]
        · have := begin_length { s with jobs := js } [] j
          rw [hj, hst] at hn
          simp at hn this ⊢
          omega
      · rw [hst] at hf; cases hf
    | cons top fs =>
      cases top with
      | user =>
        refine go .ret (ret s fs) rfl ?_ (by simp) (by simp) (by simp) ?_
        · simp [step, hcalm.ub, hst]
        · rw [hst] at hn
          rcases ret_stack s fs with e | ⟨_, _, gs, rfl, e⟩ <;> rw [e] <;> simp at hn ⊢ <;> omega
      | check => exact look_fires hcalm.ub hl.open_ hst hrec hfrun hfdl
      | waiting i' dl =>
        have hdl' := (hl.top _ _ hst).2 i' dl rfl
        have hfi := hcalm.front (.waiting i' dl) (by rw [hst]; simp) i' rfl
        rw [hrec] at hfi
        simp only [List.head?_cons, Option.some.injEq] at hfi
        subst hfi
        cases hj : s.jobs with
        | nil =>
          refine CanFire.quiet (a := .waitOut) (s1 := { s with stack := .waited f false :: fs, st := .haveTimer }) rfl ?_ rfl rfl ?_
          · simp [step, hcalm.ub, hst, hj, hdl', hfdl]
          · exact fires_now (i := f) (t := false) hcalm.ub hl.open_ rfl hfrun hfdl hne
        | cons j js =>
          refine go .waitJob (begin { s with jobs := js } (.held f false :: fs) j) rfl ?_ (by simp) (by simp) (by simp) ?_
          · simp [step, hcalm.ub, hl.open_, hj, hst]
          · have := begin_length { s with jobs := js } (.held f false :: fs) j
            rw [hj, hst] at hn
            simp at hn this ⊢
            omega
      | held i' t => exact absurd rfl ((hl.top _ _ hst).1 i' t)
      | waited i' t =>
        by_cases h1 : (s.data i').deadline ≤ s.now
        · by_cases h2 : (s.data i').running = true
          · exact fires_now hcalm.ub hl.open_ hst h2 h1 hne
          · refine CanFire.quiet (a := .fire []) (s1 := { s with stack := .check :: fs, st := .haveTimer }) rfl ?_ rfl rfl ?_
            · simp [step, hcalm.ub, hst, hl.open_, Nat.not_lt.2 h1, h2]
            · exact look_fires hcalm.ub hl.open_ rfl hrec hfrun hfdl
        · refine CanFire.quiet (a := .fire []) (s1 := { s with stack := .check :: fs }) rfl ?_ rfl rfl ?_
          · simp [step, hcalm.ub, hst, hl.open_, Nat.lt_of_not_le h1]
          · exact look_fires hcalm.ub hl.open_ rfl hrec hfrun hfdl

end Maf.Tmr
