import Verif.Model.Executor
import Verif.Lemmas.Hist

namespace Maf.Exe

variable {c : Conf}

/-- The call an event belongs to. -/
def Ev.num : Ev → Option Nat
  | .asked n _ _ _ => some n
  | .askedEmpty n _ _ => some n
  | .direct n _ => some n
  | .ran n _ _ => some n
  | .returned n _ => some n
  | .called n _ => some n
  | _ => none

/-- Is processor `p` stopped, after this? -/
def closedAfter (p : Nat) : List Ev → Bool → Bool
  | [], b => b
  | .stopped q :: l, b => closedAfter p l (if q = p then true else b)
  | .reused q :: l, b => closedAfter p l (if q = p then false else b)
  | .asked .. :: l, b => closedAfter p l b
  | .askedEmpty .. :: l, b => closedAfter p l b
  | .direct .. :: l, b => closedAfter p l b
  | .ran .. :: l, b => closedAfter p l b
  | .returned .. :: l, b => closedAfter p l b
  | .called .. :: l, b => closedAfter p l b
  | .left _ :: l, b => closedAfter p l b
  | .gone _ :: l, b => closedAfter p l b
  | .terminated :: l, b => closedAfter p l b

theorem closedAfter_append (p : Nat) (l m : List Ev) (b : Bool) : closedAfter p (l ++ m) b = closedAfter p m (closedAfter p l b) := by
  induction l generalizing b with
  | nil => rfl
  | cons e l ih => cases e <;> exact ih _

/-- Events that say nothing about processors. -/
def Ev.quiet : Ev → Bool
  | .stopped _ => false
  | .reused _ => false
  | .gone _ => false
  | _ => true

theorem closedAfter_quiet {p : Nat} {l : List Ev} (h : ∀ e ∈ l, e.quiet = true) (b : Bool) : closedAfter p l b = b := by
  induction l generalizing b with
  | nil => rfl
  | cons e l ih =>
    have ih := ih (fun e he => h e (List.mem_cons_of_mem _ he))
    have he := h e (by simp)
    cases e <;> first | exact ih _ | cases he

/-- How a call ends, other than by a refusal. -/
def Post (n : Nat) (e : Ev) : Prop := e = .terminated ∨ ∃ r, e = .returned n r ∧ r ≠ .no

/-- The prefix of a call through a `will...` function. -/
def Pre (n : Nat) (l : List Ev) : Prop := l = [] ∨ ∃ i, l = [.called n i]

/-- The steps, by what they do to queues and log. -/
inductive Case (c : Conf) (s s' : St) : Prop
  /-- the processor is stopped or gone -/
  | lost {k p fn r pre} (hp : Pre s.next pre) (hc : s.closed p = true ∨ s.alive p = false)
      (hlog : s'.log = s.log ++ (pre ++ [askEv s.next k p fn, .returned s.next r]))
      (hq : s'.queue = s.queue) (hw : s'.waits = s.waits) (hn : s'.next = s.next + 1)
      (hcl : s'.closed = s.closed) (hal : s'.alive = s.alive)
  | put {k p fn pre r} (hp : Pre s.next pre) (hc : s.closed p = false) (ha : s.alive p = true) (hr : r ≠ .no)
      (hlog : s'.log = s.log ++ (pre ++ [askEv s.next k p fn] ++ (if k = .wait then [] else [.returned s.next r])))
      (hq : s'.queue = upd s.queue p (s.queue p ++ [⟨s.next, fn, k == .wait⟩]))
      (hw : s'.waits = s.waits ++ (if k = .wait then [(s.next, p, r)] else [])) (hn : s'.next = s.next + 1)
      (hcl : s'.closed = s.closed) (hal : s'.alive = s.alive)
  | now {k p fn pre post} (hp : Pre s.next pre) (hc : s.closed p = false) (ha : s.alive p = true) (hpost : Post s.next post)
      (hlog : s'.log = s.log ++ (pre ++ [askEv s.next k p fn] ++ ranEv s.next (some p) fn ++ [post]))
      (hq : s'.queue = s.queue) (hw : s'.waits = s.waits) (hn : s'.next = s.next + 1)
      (hcl : s'.closed = s.closed) (hal : s'.alive = s.alive)
  | direct {f on r} (hlog : s'.log = s.log ++ [.direct s.next f, .ran s.next f on, .returned s.next r])
      (hr : r = if c.throws f then .no else .yes)
      (hq : s'.queue = s.queue) (hw : s'.waits = s.waits) (hn : s'.next = s.next + 1)
      (hcl : s'.closed = s.closed) (hal : s'.alive = s.alive)
  | deadWill {i} (hlog : s'.log = s.log ++ [.called s.next i, .returned s.next .done])
      (hq : s'.queue = s.queue) (hw : s'.waits = s.waits) (hn : s'.next = s.next + 1)
      (hcl : s'.closed = s.closed) (hal : s'.alive = s.alive)
  | run {p t rest} (hc : s.closed p = false) (hqp : s.queue p = t :: rest)
      (hlog : s'.log = s.log ++ (ranEv t.call (some p) t.fn ++ (if bad c t.fn && !t.guarded then [.left p] else [])))
      (hq : s'.queue = upd s.queue p rest) (hw : s'.waits = s.waits) (hn : s'.next = s.next)
      (hcl : s'.closed = s.closed) (hal : s'.alive = s.alive)
  | resume {n p r} (hm : (n, p, r) ∈ s.waits) (hnq : ∀ t ∈ s.queue p, t.call ≠ n)
      (hlog : s'.log = s.log ++ [.returned n r])
      (hq : s'.queue = s.queue) (hw : s'.waits = s.waits.filter fun x => x.1 != n) (hn : s'.next = s.next)
      (hcl : s'.closed = s.closed) (hal : s'.alive = s.alive)
  | stop {p} (hlog : s'.log = s.log ++ [.stopped p]) (hq : s'.queue = upd s.queue p []) (hw : s'.waits = s.waits)
      (hn : s'.next = s.next) (hcl : s'.closed = upd s.closed p true) (hal : s'.alive = s.alive)
  | reuse {p} (hlog : s'.log = s.log ++ [.reused p]) (hq : s'.queue = s.queue) (hw : s'.waits = s.waits)
      (hn : s'.next = s.next) (hcl : s'.closed = upd s.closed p false) (hal : s'.alive = s.alive)
  | gone {p} (hlog : s'.log = s.log ++ [.gone p]) (hq : s'.queue = upd s.queue p []) (hw : s'.waits = s.waits)
      (hn : s'.next = s.next) (hcl : s'.closed = s.closed) (hal : s'.alive = upd s.alive p false) (hno : ∀ x ∈ s.waits, x.2.1 ≠ p)
  | same (hlog : s'.log = s.log) (hq : s'.queue = s.queue) (hw : s'.waits = s.waits)
      (hn : s'.next = s.next) (hcl : s'.closed = s.closed) (hal : s'.alive = s.alive)

theorem outcome_cases (c : Conf) (s : St) (k : Kind) (p : Nat) (on fn : Option Nat) :
    (outcome c s k p on fn = .dropped ∧ s.closed p = true) ∨
    (outcome c s k p on fn = .queued ∧ s.closed p = false) ∨
    (outcome c s k p on fn = .ranNow ∧ s.closed p = false ∧ on = some p ∧ k ≠ .async ∧ (k = .dflt → bad c fn = false)) ∨
    (outcome c s k p on fn = .threwNow ∧ s.closed p = false ∧ on = some p ∧ k = .dflt ∧ bad c fn = true) := by
  unfold outcome
  cases hc : s.closed p with
  | true => left; simp
  | false =>
    right
    by_cases hk : k = .async
    · left; simp [hk]
    · by_cases ho : on = some p
      · right
        by_cases hb : k = .dflt ∧ bad c fn = true
        · right; simp [ho, hb]
        · left
          simp only [Bool.false_eq_true, if_false, if_neg hk, if_pos ho, if_neg hb]
          refine ⟨trivial, trivial, ho, hk, fun h => ?_⟩
          cases hb' : bad c fn with
          | false => rfl
          | true => exact absurd ⟨h, hb'⟩ hb
      · left; simp [hk, ho]

theorem outcome_closed {s s' : St} (h : s'.closed = s.closed) (k p on fn) : outcome c s' k p on fn = outcome c s k p on fn := by
  unfold outcome; rw [h]

theorem case_execute {s : St} (k : Kind) (p : Nat) (on : Option Nat) (f : Nat) : Case c s (execute c s k p on f) := by
  unfold execute
  cases ha : s.alive p with
  | false =>
    exact .lost (k := k) (p := p) (fn := some f) (r := .no) (pre := []) (.inl rfl) (.inr ha)
      (by simp [St.tick, St.ret, St.note, askEv]) rfl rfl rfl rfl rfl
  | true =>
    rw [if_pos rfl]
    unfold handOver
    rw [outcome_closed (s := s) (s' := s.note _) rfl]
    rcases outcome_cases c s k p on (some f) with ⟨ho, hc⟩ | ⟨ho, hc⟩ | ⟨ho, hc, hon, hk, -⟩ | ⟨ho, hc, hon, hk, hb⟩
    · rw [ho]
      exact .lost (k := k) (p := p) (fn := some f) (r := if k = .wait then .no else .yes) (pre := []) (.inl rfl) (.inl hc)
        (by simp [finishExec, St.tick, St.ret, St.note, askEv]) rfl rfl rfl rfl rfl
    · rw [ho]
      refine .put (k := k) (p := p) (fn := some f) (pre := []) (r := .yes) (.inl rfl) hc ha (by simp) ?_ ?_ ?_ ?_ ?_ ?_ <;>
        cases k <;> simp [finishExec, St.tick, St.ret, St.note, askEv, St.push, St.await]
    · rw [ho]; subst hon
      refine .now (k := k) (p := p) (fn := some f) (pre := []) (post := .returned s.next .yes) (.inl rfl) hc ha (.inr ⟨_, rfl, by simp⟩) ?_ rfl rfl rfl rfl rfl
      simp [finishExec, St.tick, St.ret, St.note, askEv]
    · rw [ho]; subst hon
      refine .now (k := k) (p := p) (fn := some f) (pre := []) (post := .terminated) (.inl rfl) hc ha (.inl rfl) ?_ rfl rfl rfl rfl rfl
      simp [finishExec, St.tick, St.kill, St.note, askEv]

theorem case_call {s : St} (i : Nat) (w : Will) (on : Option Nat) : Case c s (callWill c s i w on) := by
  unfold callWill
  cases ha : s.alive w.proc with
  | false =>
    exact .deadWill (i := i) (by simp [St.tick, St.ret, St.note]) rfl rfl rfl rfl rfl
  | true =>
    rw [if_pos rfl]
    unfold handOver
    rw [outcome_closed (s := s) (s' := { s.note _ with wills := s.wills.set i (empty w) }) rfl]
    rcases outcome_cases c s w.kind w.proc on w.exec with ⟨ho, hc⟩ | ⟨ho, hc⟩ | ⟨ho, hc, hon, hk, -⟩ | ⟨ho, hc, hon, hk, hb⟩
    · rw [ho]
      exact .lost (k := w.kind) (p := w.proc) (fn := w.exec) (r := if w.kind = .wait then .threw else .done) (pre := [.called s.next i]) (.inr ⟨_, rfl⟩) (.inl hc)
        (by simp [finishWill, St.tick, St.ret, St.note]) rfl rfl rfl rfl rfl
    · rw [ho]
      refine .put (k := w.kind) (p := w.proc) (fn := w.exec) (pre := [.called s.next i]) (r := .done) (.inr ⟨_, rfl⟩) hc ha (by simp) ?_ ?_ ?_ ?_ ?_ ?_ <;>
        cases w.kind <;> simp [finishWill, St.tick, St.ret, St.note, St.push, St.await]
    · rw [ho]; subst hon
      refine .now (k := w.kind) (p := w.proc) (fn := w.exec) (pre := [.called s.next i]) (post := .returned s.next .done) (.inr ⟨_, rfl⟩) hc ha (.inr ⟨_, rfl, by simp⟩) ?_ rfl rfl rfl rfl rfl
      simp [finishWill, St.tick, St.ret, St.note]
    · rw [ho]; subst hon
      refine .now (k := w.kind) (p := w.proc) (fn := w.exec) (pre := [.called s.next i]) (post := .returned s.next .threw) (.inr ⟨_, rfl⟩) hc ha (.inr ⟨_, rfl, by simp⟩) ?_ rfl rfl rfl rfl rfl
      simp [finishWill, St.tick, St.ret, St.note]

theorem step_live {s s' : St} {a : Act} (h : step c s a = some s') : live c s a = some s' ∧ s.dead = false := by
  unfold step at h
  cases hd : s.dead with
  | true => simp [hd] at h
  | false => simp [hd] at h; exact ⟨h, rfl⟩

theorem step_case {s s' : St} {a : Act} (h : step c s a = some s') : Case c s s' := by
  replace h := (step_live h).1
  cases a with
  | exec k p on f => cases h; exact case_execute k p on f
  | direct on f =>
    cases h
    exact .direct (f := f) (on := on) rfl rfl rfl rfl rfl rfl rfl
  | will k p f => cases h; exact .same rfl rfl rfl rfl rfl rfl
  | copy i =>
    obtain ⟨w, -, e⟩ := Option.map_eq_some_iff.1 h
    subst e; exact .same rfl rfl rfl rfl rfl rfl
  | call i on =>
    obtain ⟨w, -, e⟩ := Option.map_eq_some_iff.1 h
    subst e; exact case_call i w on
  | run p =>
    simp only [live] at h
    cases hc : s.closed p with
    | true => simp [hc] at h
    | false =>
      simp only [hc, Bool.false_eq_true, if_false] at h
      cases hq : s.queue p with
      | nil => rw [hq] at h; cases h
      | cons t rest =>
        rw [hq] at h; cases h
        exact .run hc hq rfl rfl rfl rfl rfl rfl
  | resume n =>
    obtain ⟨⟨m, p, r⟩, hw, h2⟩ := Option.bind_eq_some_iff.1 h
    have hmn : m = n := by simpa using List.find?_some hw
    subst hmn
    have hmem := List.mem_of_find?_eq_some hw
    unfold doResume at h2
    cases hany : (s.queue p).any (fun t => t.call == m) with
    | true => simp only [hany, if_true] at h2; cases h2
    | false =>
      simp only [hany, Bool.false_eq_true, if_false, Option.some.injEq] at h2
      subst h2
      refine .resume hmem ?_ rfl rfl rfl rfl rfl rfl
      intro t ht hcall
      rw [List.any_eq_false] at hany
      exact hany t ht (by simp [hcall])
  | stop p =>
    cases h
    unfold doStop
    cases hc : s.closed p with
    | true => exact .same rfl rfl rfl rfl rfl rfl
    | false => exact .stop (p := p) rfl rfl rfl rfl rfl rfl
  | reuse p => cases h; exact .reuse (p := p) rfl rfl rfl rfl rfl rfl
  | gone p =>
    simp only [live] at h
    cases hw : s.waits.any fun w => w.2.1 == p with
    | true => simp [hw] at h
    | false =>
      rw [hw] at h; cases h
      refine .gone (p := p) rfl rfl rfl rfl rfl rfl ?_
      intro x hx he
      rw [List.any_eq_false] at hw
      exact hw x hx (by simp [he])

theorem mem_ranEv {n : Nat} {on : Option Nat} {fn : Option Nat} {e : Ev} : e ∈ ranEv n on fn ↔ ∃ f, fn = some f ∧ e = .ran n f on := by
  cases fn <;> simp [ranEv]

theorem askEv_num (n k p fn) : (askEv n k p fn).num = some n := by cases fn <;> rfl

theorem askEv_inj {n k p fn n' k' p' fn'} (h : askEv n k p fn = askEv n' k' p' fn') : n = n' ∧ k = k' ∧ p = p' ∧ fn = fn' := by
  cases fn <;> cases fn' <;> simp [askEv] at h <;> simp [h]

/-- The new events of a step. -/
inductive New (c : Conf) (s s' : St) (es : List Ev) : Prop
  /-- a new call -/
  | fresh (hn : s'.next = s.next + 1) (h : ∀ e ∈ es, e = .terminated ∨ e.num = some s.next)
      (hq : ∀ p t, t ∈ s'.queue p → t ∈ s.queue p ∨ t.call = s.next) (hq2 : ∀ p t, t ∈ s.queue p → t ∈ s'.queue p)
      (hw : ∀ x, x ∈ s'.waits → x ∈ s.waits ∨ x.1 = s.next)
  | run {p t rest} (hn : s'.next = s.next) (hqp : s.queue p = t :: rest) (hq : s'.queue = upd s.queue p rest)
      (he : es = ranEv t.call (some p) t.fn ++ (if bad c t.fn && !t.guarded then [.left p] else [])) (hw : s'.waits = s.waits)
  | resume {n p r} (hn : s'.next = s.next) (hm : (n, p, r) ∈ s.waits) (hnq : ∀ t ∈ s.queue p, t.call ≠ n) (he : es = [.returned n r])
      (hq : s'.queue = s.queue) (hw : ∀ x, x ∈ s'.waits → x ∈ s.waits)
  | other (hn : s'.next = s.next) (h : ∀ e ∈ es, e.num = none ∧ ∀ p, e ≠ .left p)
      (hq : ∀ p t, t ∈ s'.queue p → t ∈ s.queue p) (hq2 : ∀ p t, t ∈ s.queue p → t ∈ s'.queue p ∨ .stopped p ∈ es ∨ .gone p ∈ es)
      (hw : s'.waits = s.waits)

theorem mem_pre {n : Nat} {pre : List Ev} (hp : Pre n pre) {e : Ev} (h : e ∈ pre) : ∃ i, e = .called n i := by
  rcases hp with rfl | ⟨i, rfl⟩
  · cases h
  · exact ⟨i, by simpa using h⟩

theorem case_new {s s' : St} (h : Case c s s') : ∃ es, s'.log = s.log ++ es ∧ New c s s' es := by
  cases h with
  | @lost k p fn r pre hp hc hlog hq hw hn hcl hal =>
    refine ⟨_, hlog, .fresh hn ?_ ?_ ?_ ?_⟩
    · intro e he
      simp only [List.mem_append, List.mem_cons, List.not_mem_nil, or_false] at he
      rcases he with he | rfl | rfl
      · obtain ⟨i, rfl⟩ := mem_pre hp he; exact .inr rfl
      · exact .inr (askEv_num ..)
      · exact .inr rfl
    · intro p t ht; rw [hq] at ht; exact .inl ht
    · intro p t ht; rw [hq]; exact ht
    · intro x hx; rw [hw] at hx; exact .inl hx
  | @put k p fn pre r hp hc ha hr hlog hq hw hn hcl hal =>
    refine ⟨_, hlog, .fresh hn ?_ ?_ ?_ ?_⟩
    · intro e he
      simp only [List.mem_append, List.mem_cons, List.not_mem_nil, or_false] at he
      rcases he with (he | rfl) | he
      · obtain ⟨i, rfl⟩ := mem_pre hp he; exact .inr rfl
      · exact .inr (askEv_num ..)
      · by_cases hk : k = .wait
        · rw [if_pos hk] at he; cases he
        · rw [if_neg hk] at he; simp at he; subst he; exact .inr rfl
    · intro p' t ht; rw [hq] at ht; unfold upd at ht
      by_cases h : p' = p
      · subst h; simp only [if_true, List.mem_append, List.mem_singleton] at ht
        rcases ht with ht | rfl
        · exact .inl ht
        · exact .inr rfl
      · rw [if_neg h] at ht; exact .inl ht
    · intro p' t ht; rw [hq]; unfold upd
      by_cases h : p' = p
      · subst h; simp [ht]
      · rw [if_neg h]; exact ht
    · intro x hx; rw [hw] at hx
      rcases List.mem_append.1 hx with hx | hx
      · exact .inl hx
      · by_cases hk : k = .wait
        · rw [if_pos hk] at hx; simp at hx; subst hx; exact .inr rfl
        · rw [if_neg hk] at hx; cases hx
  | @now k p fn pre post hp hc ha hpost hlog hq hw hn hcl hal =>
    refine ⟨_, hlog, .fresh hn ?_ ?_ ?_ ?_⟩
    · intro e he
      simp only [List.mem_append, List.mem_cons, List.not_mem_nil, or_false] at he
      rcases he with ((he | rfl) | he) | rfl
      · obtain ⟨i, rfl⟩ := mem_pre hp he; exact .inr rfl
      · exact .inr (askEv_num ..)
      · obtain ⟨f, -, rfl⟩ := mem_ranEv.1 he; exact .inr rfl
      · rcases hpost with rfl | ⟨r, rfl, -⟩
        · exact .inl rfl
        · exact .inr rfl
    · intro p t ht; rw [hq] at ht; exact .inl ht
    · intro p t ht; rw [hq]; exact ht
    · intro x hx; rw [hw] at hx; exact .inl hx
  | direct hlog hr hq hw hn hcl hal =>
    refine ⟨_, hlog, .fresh hn ?_ ?_ ?_ ?_⟩
    · intro e he; simp at he; rcases he with rfl | rfl | rfl <;> exact .inr rfl
    · intro p t ht; rw [hq] at ht; exact .inl ht
    · intro p t ht; rw [hq]; exact ht
    · intro x hx; rw [hw] at hx; exact .inl hx
  | deadWill hlog hq hw hn hcl hal =>
    refine ⟨_, hlog, .fresh hn ?_ ?_ ?_ ?_⟩
    · intro e he; simp at he; rcases he with rfl | rfl <;> exact .inr rfl
    · intro p t ht; rw [hq] at ht; exact .inl ht
    · intro p t ht; rw [hq]; exact ht
    · intro x hx; rw [hw] at hx; exact .inl hx
  | run hc hqp hlog hq hw hn hcl hal => exact ⟨_, hlog, .run hn hqp hq rfl hw⟩
  | resume hm hnq hlog hq hw hn hcl hal =>
    exact ⟨_, hlog, .resume hn hm hnq rfl hq (fun x hx => by rw [hw] at hx; exact (List.mem_filter.1 hx).1)⟩
  | @stop p hlog hq hw hn hcl hal =>
    refine ⟨_, hlog, .other hn (by simp [Ev.num]) ?_ ?_ hw⟩
    · intro p' t ht; rw [hq] at ht; unfold upd at ht
      by_cases h : p' = p
      · rw [if_pos h] at ht; cases ht
      · rw [if_neg h] at ht; exact ht
    · intro p' t ht; rw [hq]; unfold upd
      by_cases h : p' = p
      · subst h; simp
      · rw [if_neg h]; exact .inl ht
  | reuse hlog hq hw hn hcl hal =>
    exact ⟨_, hlog, .other hn (by simp [Ev.num]) (fun p t ht => by rw [hq] at ht; exact ht) (fun p t ht => by rw [hq]; exact .inl ht) hw⟩
  | @gone p hlog hq hw hn hcl hal =>
    refine ⟨_, hlog, .other hn (by simp [Ev.num]) ?_ ?_ hw⟩
    · intro p' t ht; rw [hq] at ht; unfold upd at ht
      by_cases h : p' = p
      · rw [if_pos h] at ht; cases ht
      · rw [if_neg h] at ht; exact ht
    · intro p' t ht; rw [hq]; unfold upd
      by_cases h : p' = p
      · subst h; simp
      · rw [if_neg h]; exact .inl ht
  | same hlog hq hw hn hcl hal =>
    exact ⟨[], by simpa using hlog, .other hn (by simp) (fun p t ht => by rw [hq] at ht; exact ht) (fun p t ht => by rw [hq]; exact .inl ht) hw⟩

/-! ### Invariants -/

structure Inv (c : Conf) (s : St) : Prop where
  fresh : ∀ e ∈ s.log, ∀ n, e.num = some n → n < s.next
  open' : ∀ p t, t ∈ s.queue p → s.closed p = false ∧ s.alive p = true
  qask : ∀ p t, t ∈ s.queue p → ∃ k, askEv t.call k p t.fn ∈ s.log
  wask : ∀ n p r, (n, p, r) ∈ s.waits → r ≠ .no ∧ ∃ fn, askEv n .wait p fn ∈ s.log
  uniq : ∀ n k p fn k' p' fn', askEv n k p fn ∈ s.log → askEv n k' p' fn' ∈ s.log → k = k' ∧ p = p' ∧ fn = fn'
  nodup : ∀ p, ((s.queue p).map Task.call).Nodup
  ranq : ∀ n f on, Ev.ran n f on ∈ s.log → ∀ p t, t ∈ s.queue p → t.call ≠ n
  noq : ∀ n, Ev.returned n .no ∈ s.log → ∀ p t, t ∈ s.queue p → t.call ≠ n
  cl : ∀ p, s.closed p = closedAfter p s.log false
  al : ∀ p, s.alive p = true ↔ Ev.gone p ∉ s.log

theorem Inv.qfresh {s : St} (h : Inv c s) {p t} (ht : t ∈ s.queue p) : t.call < s.next := by
  obtain ⟨k, hk⟩ := h.qask p t ht
  exact h.fresh _ hk _ (askEv_num ..)

theorem inv_init : Inv c init := by
  constructor <;> intros <;> simp_all [init, closedAfter]

/-- the new call's number is unused -/
theorem Inv.unused {s : St} (h : Inv c s) {e : Ev} (he : e ∈ s.log) : e.num ≠ some s.next := by
  intro hn; have := h.fresh e he _ hn; omega

theorem inv_fresh {s s' : St} (hI : Inv c s) (h : Case c s s') : ∀ e ∈ s'.log, ∀ n, e.num = some n → n < s'.next := by
  obtain ⟨es, hlog, hN⟩ := case_new h
  intro e he n hn
  rw [hlog] at he
  rcases List.mem_append.1 he with he | he
  · have := hI.fresh e he n hn
    cases hN with
    | fresh h1 => omega
    | run h1 => omega
    | resume h1 => omega
    | other h1 => omega
  · cases hN with
    | fresh h1 h2 =>
      rcases h2 e he with rfl | h3
      · cases hn
      · rw [h3] at hn; cases hn; omega
    | @run p t rest h1 h2 h3 h4 =>
      rw [h4] at he
      rcases List.mem_append.1 he with he | he
      · obtain ⟨f, -, rfl⟩ := mem_ranEv.1 he
        cases hn
        have := hI.qfresh (p := p) (t := t) (by rw [h2]; simp)
        omega
      · cases hb : (bad c t.fn && !t.guarded) with
        | true => rw [hb] at he; simp at he; subst he; cases hn
        | false => rw [hb] at he; simp at he
    | resume h1 h2 h3 h4 =>
      rw [h4] at he; simp at he; subst he; cases hn
      obtain ⟨-, fn, h5⟩ := hI.wask _ _ _ h2
      have := hI.fresh _ h5 _ (askEv_num ..)
      omega
    | other h1 h2 => rw [(h2 e he).1] at hn; cases hn

theorem inv_open {s s' : St} (hI : Inv c s) (h : Case c s s') : ∀ p t, t ∈ s'.queue p → s'.closed p = false ∧ s'.alive p = true := by
  intro p t ht
  have keep : s'.queue = s.queue → s'.closed = s.closed → s'.alive = s.alive → s'.closed p = false ∧ s'.alive p = true := by
    intro h1 h2 h3; rw [h2, h3]; rw [h1] at ht; exact hI.open' p t ht
  cases h with
  | lost hp hc hlog hq hw hn hcl hal => exact keep hq hcl hal
  | @put k q fn pre r hp hc ha hr hlog hq hw hn hcl hal =>
    rw [hcl, hal]; rw [hq] at ht; unfold upd at ht
    by_cases h : p = q
    · subst h; exact ⟨hc, ha⟩
    · rw [if_neg h] at ht; exact hI.open' p t ht
  | now hp hc ha hpost hlog hq hw hn hcl hal => exact keep hq hcl hal
  | direct hlog hr hq hw hn hcl hal => exact keep hq hcl hal
  | deadWill hlog hq hw hn hcl hal => exact keep hq hcl hal
  | @run q u rest hc hqp hlog hq hw hn hcl hal =>
    rw [hcl, hal]; rw [hq] at ht; unfold upd at ht
    by_cases h : p = q
    · subst h; rw [if_pos rfl] at ht; exact hI.open' p t (by rw [hqp]; simp [ht])
    · rw [if_neg h] at ht; exact hI.open' p t ht
  | resume hm hnq hlog hq hw hn hcl hal => exact keep hq hcl hal
  | @stop q hlog hq hw hn hcl hal =>
    rw [hcl, hal]; rw [hq] at ht; unfold upd at ht ⊢
    by_cases h : p = q
    · rw [if_pos h] at ht; cases ht
    · rw [if_neg h] at ht ⊢; exact hI.open' p t ht
  | @reuse q hlog hq hw hn hcl hal =>
    rw [hcl, hal]; rw [hq] at ht; unfold upd
    have := hI.open' p t ht
    by_cases h : p = q
    · rw [if_pos h]; exact ⟨rfl, this.2⟩
    · rw [if_neg h]; exact this
  | @gone q hlog hq hw hn hcl hal =>
    rw [hcl, hal]; rw [hq] at ht; unfold upd at ht ⊢
    by_cases h : p = q
    · rw [if_pos h] at ht; cases ht
    · rw [if_neg h] at ht ⊢; exact hI.open' p t ht
  | same hlog hq hw hn hcl hal => exact keep hq hcl hal

theorem inv_qask {s s' : St} (hI : Inv c s) (h : Case c s s') : ∀ p t, t ∈ s'.queue p → ∃ k, askEv t.call k p t.fn ∈ s'.log := by
  intro p t ht
  by_cases hold : t ∈ s.queue p
  · obtain ⟨k, hk⟩ := hI.qask p t hold
    obtain ⟨es, hlog, -⟩ := case_new h
    exact ⟨k, by rw [hlog]; exact List.mem_append_left _ hk⟩
  · cases h with
    | @put k q fn pre r hp hc ha hr hlog hq hw hn hcl hal =>
      rw [hq] at ht; unfold upd at ht
      by_cases h : p = q
      · subst h
        simp only [if_true, List.mem_append, List.mem_singleton] at ht
        rcases ht with ht | rfl
        · exact absurd ht hold
        · exact ⟨k, by rw [hlog]; simp⟩
      · rw [if_neg h] at ht; exact absurd ht hold
    | lost hp hc hlog hq hw hn hcl hal => rw [hq] at ht; exact absurd ht hold
    | now hp hc ha hpost hlog hq hw hn hcl hal => rw [hq] at ht; exact absurd ht hold
    | direct hlog hr hq hw hn hcl hal => rw [hq] at ht; exact absurd ht hold
    | deadWill hlog hq hw hn hcl hal => rw [hq] at ht; exact absurd ht hold
    | resume hm hnq hlog hq hw hn hcl hal => rw [hq] at ht; exact absurd ht hold
    | reuse hlog hq hw hn hcl hal => rw [hq] at ht; exact absurd ht hold
    | same hlog hq hw hn hcl hal => rw [hq] at ht; exact absurd ht hold
    | @run q u rest hc hqp hlog hq hw hn hcl hal =>
      rw [hq] at ht; unfold upd at ht
      by_cases h : p = q
      · subst h; rw [if_pos rfl] at ht; exact absurd (by rw [hqp]; simp [ht]) hold
      · rw [if_neg h] at ht; exact absurd ht hold
    | @stop q hlog hq hw hn hcl hal =>
      rw [hq] at ht; unfold upd at ht
      by_cases h : p = q
      · rw [if_pos h] at ht; cases ht
      · rw [if_neg h] at ht; exact absurd ht hold
    | @gone q hlog hq hw hn hcl hal =>
      rw [hq] at ht; unfold upd at ht
      by_cases h : p = q
      · rw [if_pos h] at ht; cases ht
      · rw [if_neg h] at ht; exact absurd ht hold

theorem inv_wask {s s' : St} (hI : Inv c s) (h : Case c s s') : ∀ n p r, (n, p, r) ∈ s'.waits → r ≠ .no ∧ ∃ fn, askEv n .wait p fn ∈ s'.log := by
  intro n p r hm
  by_cases hold : (n, p, r) ∈ s.waits
  · obtain ⟨h1, fn, h2⟩ := hI.wask n p r hold
    obtain ⟨es, hlog, -⟩ := case_new h
    exact ⟨h1, fn, by rw [hlog]; exact List.mem_append_left _ h2⟩
  · cases h with
    | @put k q fn pre r' hp hc ha hr hlog hq hw hn hcl hal =>
      rw [hw] at hm
      rcases List.mem_append.1 hm with hm | hm
      · exact absurd hm hold
      · by_cases hk : k = .wait
        · rw [if_pos hk] at hm
          simp only [List.mem_singleton, Prod.mk.injEq] at hm
          obtain ⟨rfl, rfl, rfl⟩ := hm
          subst hk
          exact ⟨hr, fn, by rw [hlog]; simp⟩
        · rw [if_neg hk] at hm; cases hm
    | resume hm' hnq hlog hq hw hn hcl hal => rw [hw] at hm; exact absurd (List.mem_filter.1 hm).1 hold
    | lost hp hc hlog hq hw hn hcl hal => rw [hw] at hm; exact absurd hm hold
    | now hp hc ha hpost hlog hq hw hn hcl hal => rw [hw] at hm; exact absurd hm hold
    | direct hlog hr hq hw hn hcl hal => rw [hw] at hm; exact absurd hm hold
    | deadWill hlog hq hw hn hcl hal => rw [hw] at hm; exact absurd hm hold
    | run hc hqp hlog hq hw hn hcl hal => rw [hw] at hm; exact absurd hm hold
    | reuse hlog hq hw hn hcl hal => rw [hw] at hm; exact absurd hm hold
    | stop hlog hq hw hn hcl hal => rw [hw] at hm; exact absurd hm hold
    | gone hlog hq hw hn hcl hal => rw [hw] at hm; exact absurd hm hold
    | same hlog hq hw hn hcl hal => rw [hw] at hm; exact absurd hm hold

/-- The new asks of a step. -/
theorem new_ask {s s' : St} (h : Case c s s') {es : List Ev} (hes : s'.log = s.log ++ es) :
    ∀ n k p fn k' p' fn', askEv n k p fn ∈ es → askEv n k' p' fn' ∈ es → n = s.next ∧ k = k' ∧ p = p' ∧ fn = fn' := by
  have notask : ∀ {n k p fn} {l : List Ev}, (∀ e ∈ l, ∀ m j q gn, e ≠ askEv m j q gn) → askEv n k p fn ∈ l → False := by
    intro n k p fn l hl hm; exact hl _ hm _ _ _ _ rfl
  have hcan : ∀ {x : List Ev}, s'.log = s.log ++ x → es = x := by
    intro x hx; rw [hes] at hx; exact List.append_cancel_left hx
  -- one ask at a known place
  have one : ∀ {pre post : List Ev} {k₀ p₀ fn₀}, es = pre ++ askEv s.next k₀ p₀ fn₀ :: post →
      (∀ e ∈ pre, ∀ m j q gn, e ≠ askEv m j q gn) → (∀ e ∈ post, ∀ m j q gn, e ≠ askEv m j q gn) →
      ∀ n k p fn, askEv n k p fn ∈ es → n = s.next ∧ k = k₀ ∧ p = p₀ ∧ fn = fn₀ := by
    intro pre post k₀ p₀ fn₀ he h1 h2 n k p fn hm
    rw [he] at hm
    rcases List.mem_append.1 hm with hm | hm
    · exact (h1 _ hm _ _ _ _ rfl).elim
    · rcases List.mem_cons.1 hm with hm | hm
      · exact askEv_inj hm
      · exact (h2 _ hm _ _ _ _ rfl).elim
  have two : ∀ {pre post : List Ev} {k₀ p₀ fn₀}, es = pre ++ askEv s.next k₀ p₀ fn₀ :: post →
      (∀ e ∈ pre, ∀ m j q gn, e ≠ askEv m j q gn) → (∀ e ∈ post, ∀ m j q gn, e ≠ askEv m j q gn) →
      ∀ n k p fn k' p' fn', askEv n k p fn ∈ es → askEv n k' p' fn' ∈ es → n = s.next ∧ k = k' ∧ p = p' ∧ fn = fn' := by
    intro pre post k₀ p₀ fn₀ he h1 h2 n k p fn k' p' fn' hm hm'
    obtain ⟨a, rfl, rfl, rfl⟩ := one he h1 h2 _ _ _ _ hm
    obtain ⟨-, rfl, rfl, rfl⟩ := one he h1 h2 _ _ _ _ hm'
    exact ⟨a, rfl, rfl, rfl⟩
  have nopre : ∀ {pre : List Ev}, Pre s.next pre → ∀ e ∈ pre, ∀ m j q gn, e ≠ askEv m j q gn := by
    intro pre hp e he m j q gn hx
    obtain ⟨i, rfl⟩ := mem_pre hp he
    cases gn <;> cases hx
  have noret : ∀ {n r} {m j q gn}, Ev.returned n r ≠ askEv m j q gn := by
    intro n r m j q gn hx; cases gn <;> cases hx
  have noran : ∀ {n f on} {m j q gn}, Ev.ran n f on ≠ askEv m j q gn := by
    intro n f on m j q gn hx; cases gn <;> cases hx
  have none : (∀ e ∈ es, ∀ m j q gn, e ≠ askEv m j q gn) → ∀ n k p fn k' p' fn', askEv n k p fn ∈ es → askEv n k' p' fn' ∈ es → n = s.next ∧ k = k' ∧ p = p' ∧ fn = fn' := by
    intro hl n k p fn k' p' fn' hm _; exact (notask hl hm).elim
  cases h with
  | lost hp hc hlog hq hw hn hcl hal =>
    exact two (hcan hlog) (nopre hp) (by intro e he; simp at he; subst he; intros; exact noret)
  | put hp hc ha hr hlog hq hw hn hcl hal =>
    rename_i k p fn pre r
    refine two (by rw [hcan hlog, List.append_assoc]; rfl) (nopre hp) ?_
    intro e he
    by_cases hk : k = .wait
    · simp [hk] at he
    · simp [hk] at he; subst he; intros; exact noret
  | now hp hc ha hpost hlog hq hw hn hcl hal =>
    rename_i k p fn pre post
    refine two (by rw [hcan hlog, List.append_assoc, List.append_assoc]; rfl) (nopre hp) ?_
    intro e he m j q gn hx
    replace he : e ∈ ranEv s.next (some p) fn ∨ e = post := by simpa using he
    rcases he with he | rfl
    · obtain ⟨f, -, rfl⟩ := mem_ranEv.1 he; exact noran hx
    · rcases hpost with rfl | ⟨r, rfl, -⟩
      · cases gn <;> cases hx
      · exact noret hx
  | direct hlog hr hq hw hn hcl hal =>
    refine none ?_; rw [hcan hlog]; intro e he m j q gn hx
    simp at he; rcases he with rfl | rfl | rfl <;> cases gn <;> cases hx
  | deadWill hlog hq hw hn hcl hal =>
    refine none ?_; rw [hcan hlog]; intro e he m j q gn hx
    simp at he; rcases he with rfl | rfl <;> cases gn <;> cases hx
  | run hc hqp hlog hq hw hn hcl hal =>
    rename_i p t rest
    refine none ?_; rw [hcan hlog]; intro e he m j q gn hx
    rcases List.mem_append.1 he with he | he
    · obtain ⟨f, -, rfl⟩ := mem_ranEv.1 he; exact noran hx
    · cases hb : (bad c t.fn && !t.guarded) with
      | true => rw [hb] at he; simp at he; subst he; cases gn <;> cases hx
      | false => rw [hb] at he; simp at he
  | resume hm hnq hlog hq hw hn hcl hal =>
    refine none ?_; rw [hcan hlog]; intro e he m j q gn hx
    simp at he; subst he; cases gn <;> cases hx
  | stop hlog hq hw hn hcl hal =>
    refine none ?_; rw [hcan hlog]; intro e he m j q gn hx
    simp at he; subst he; cases gn <;> cases hx
  | reuse hlog hq hw hn hcl hal =>
    refine none ?_; rw [hcan hlog]; intro e he m j q gn hx
    simp at he; subst he; cases gn <;> cases hx
  | gone hlog hq hw hn hcl hal =>
    refine none ?_; rw [hcan hlog]; intro e he m j q gn hx
    simp at he; subst he; cases gn <;> cases hx
  | same hlog hq hw hn hcl hal =>
    refine none ?_; rw [hcan (x := []) (by simpa using hlog)]; intro e he; cases he

theorem inv_uniq {s s' : St} (hI : Inv c s) (h : Case c s s') : ∀ n k p fn k' p' fn', askEv n k p fn ∈ s'.log → askEv n k' p' fn' ∈ s'.log → k = k' ∧ p = p' ∧ fn = fn' := by
  obtain ⟨es, hlog, -⟩ := case_new h
  have hnew := new_ask h hlog
  intro n k p fn k' p' fn' h1 h2
  rw [hlog] at h1 h2
  rcases List.mem_append.1 h1 with h1 | h1 <;> rcases List.mem_append.1 h2 with h2 | h2
  · exact hI.uniq n k p fn k' p' fn' h1 h2
  · have := (hnew n k' p' fn' k' p' fn' h2 h2).1
    subst this; exact absurd (askEv_num ..) (hI.unused h1)
  · have := (hnew n k p fn k p fn h1 h1).1
    subst this; exact absurd (askEv_num ..) (hI.unused h2)
  · exact (hnew n k p fn k' p' fn' h1 h2).2

theorem inv_nodup {s s' : St} (hI : Inv c s) (h : Case c s s') : ∀ p, ((s'.queue p).map Task.call).Nodup := by
  intro p
  cases h with
  | @put k q fn pre r hp hc ha hr hlog hq hw hn hcl hal =>
    rw [hq]; unfold upd
    by_cases h : p = q
    · subst h; rw [if_pos rfl, List.map_append, List.nodup_append]
      refine ⟨hI.nodup p, by simp, ?_⟩
      intro a ha b hb hab
      simp at hb
      obtain ⟨t, ht, rfl⟩ := List.mem_map.1 ha
      have := hI.qfresh ht; omega
    · rw [if_neg h]; exact hI.nodup p
  | @run q u rest hc hqp hlog hq hw hn hcl hal =>
    rw [hq]; unfold upd
    by_cases h : p = q
    · subst h; rw [if_pos rfl]; have := hI.nodup p; rw [hqp, List.map_cons, List.nodup_cons] at this; exact this.2
    · rw [if_neg h]; exact hI.nodup p
  | @stop q hlog hq hw hn hcl hal =>
    rw [hq]; unfold upd
    by_cases h : p = q
    · rw [if_pos h]; exact List.nodup_nil
    · rw [if_neg h]; exact hI.nodup p
  | @gone q hlog hq hw hn hcl hal =>
    rw [hq]; unfold upd
    by_cases h : p = q
    · rw [if_pos h]; exact List.nodup_nil
    · rw [if_neg h]; exact hI.nodup p
  | lost hp hc hlog hq hw hn hcl hal => rw [hq]; exact hI.nodup p
  | now hp hc ha hpost hlog hq hw hn hcl hal => rw [hq]; exact hI.nodup p
  | direct hlog hr hq hw hn hcl hal => rw [hq]; exact hI.nodup p
  | deadWill hlog hq hw hn hcl hal => rw [hq]; exact hI.nodup p
  | resume hm hnq hlog hq hw hn hcl hal => rw [hq]; exact hI.nodup p
  | reuse hlog hq hw hn hcl hal => rw [hq]; exact hI.nodup p
  | same hlog hq hw hn hcl hal => rw [hq]; exact hI.nodup p

/-- calls in two queues are different calls -/
theorem Inv.sameq {s : St} (hI : Inv c s) {p q t u} (ht : t ∈ s.queue p) (hu : u ∈ s.queue q) (h : t.call = u.call) : p = q := by
  obtain ⟨k, hk⟩ := hI.qask p t ht
  obtain ⟨k', hk'⟩ := hI.qask q u hu
  rw [h] at hk
  exact (hI.uniq _ _ _ _ _ _ _ hk hk').2.1

/-- after a task has been taken out, its call is in no queue -/
theorem Inv.taken {s : St} (hI : Inv c s) {p t rest} (hqp : s.queue p = t :: rest) : ∀ q u, u ∈ upd s.queue p rest q → u.call ≠ t.call := by
  intro q u hu he
  unfold upd at hu
  have ht : t ∈ s.queue p := by rw [hqp]; simp
  by_cases h : q = p
  · rw [if_pos h] at hu
    have := hI.nodup p; rw [hqp, List.map_cons, List.nodup_cons] at this
    exact this.1 (he ▸ List.mem_map_of_mem hu)
  · rw [if_neg h] at hu
    exact h (hI.sameq hu ht he)

theorem inv_ranq {s s' : St} (hI : Inv c s) (h : Case c s s') : ∀ n f on, Ev.ran n f on ∈ s'.log → ∀ p t, t ∈ s'.queue p → t.call ≠ n := by
  intro n f on hm p t ht hc
  subst hc
  by_cases hold : Ev.ran t.call f on ∈ s.log
  · by_cases hq : t ∈ s.queue p
    · exact hI.ranq _ _ _ hold p t hq rfl
    · obtain ⟨es, hlog, hN⟩ := case_new h
      cases hN with
      | fresh h1 h2 h3 h4 h5 =>
        rcases h3 p t ht with h6 | h6
        · exact hq h6
        · exact hI.unused hold (by rw [← h6]; rfl)
      | @run q u rest h1 h2 h3 h4 =>
        rw [h3] at ht; unfold upd at ht
        by_cases h : p = q
        · subst h; rw [if_pos rfl] at ht; exact hq (by rw [h2]; simp [ht])
        · rw [if_neg h] at ht; exact hq ht
      | resume h1 h2 h3 h4 h5 h6 => rw [h5] at ht; exact hq ht
      | other h1 h2 h3 h4 => exact hq (h3 p t ht)
  · cases h with
    | @now k q fn pre post hp hc ha hpost hlog hq hw hn hcl hal =>
      rw [hlog] at hm
      have hx : t.call = s.next := by
        simp only [List.mem_append, List.mem_singleton] at hm
        rcases hm with hm | ((hm | hm) | hm) | hm
        · exact absurd hm hold
        · obtain ⟨i, h⟩ := mem_pre hp hm; cases h
        · cases fn <;> cases hm
        · obtain ⟨f, -, h⟩ := mem_ranEv.1 hm; simp only [Ev.ran.injEq] at h; exact h.1
        · rcases hpost with rfl | ⟨r, rfl, -⟩ <;> cases hm
      rw [hq] at ht
      have := hI.qfresh ht; omega
    | @direct f' on' r hlog hr hq hw hn hcl hal =>
      rw [hlog] at hm
      simp at hm
      rcases hm with hm | ⟨hm, -, -⟩
      · exact absurd hm hold
      · rw [hq] at ht; have := hI.qfresh ht; omega
    | @run q u rest hc hqp hlog hq hw hn hcl hal =>
      rw [hlog] at hm
      simp only [List.mem_append] at hm
      rcases hm with hm | hm | hm
      · exact absurd hm hold
      · obtain ⟨f', -, h⟩ := mem_ranEv.1 hm
        simp only [Ev.ran.injEq] at h
        rw [hq] at ht
        exact hI.taken hqp p t ht h.1
      · cases hb : (bad c u.fn && !u.guarded) with
        | true => rw [hb] at hm; simp at hm
        | false => rw [hb] at hm; simp at hm
    | @lost k q fn r pre hp hc hlog hq hw hn hcl hal =>
      rw [hlog] at hm
      simp only [List.mem_append, List.mem_cons, List.not_mem_nil, or_false] at hm
      rcases hm with hm | hm | hm | hm
      · exact absurd hm hold
      · obtain ⟨i, h⟩ := mem_pre hp hm; cases h
      · cases fn <;> cases hm
      · cases hm
    | @put k q fn pre r hp hc ha hr hlog hq hw hn hcl hal =>
      rw [hlog] at hm
      simp only [List.mem_append, List.mem_singleton] at hm
      rcases hm with hm | (hm | hm) | hm
      · exact absurd hm hold
      · obtain ⟨i, h⟩ := mem_pre hp hm; cases h
      · cases fn <;> cases hm
      · by_cases hk : k = .wait <;> simp [hk] at hm
    | deadWill hlog hq hw hn hcl hal => rw [hlog] at hm; simp at hm; exact hold hm
    | resume hm' hnq hlog hq hw hn hcl hal => rw [hlog] at hm; simp at hm; exact hold hm
    | stop hlog hq hw hn hcl hal => rw [hlog] at hm; simp at hm; exact hold hm
    | reuse hlog hq hw hn hcl hal => rw [hlog] at hm; simp at hm; exact hold hm
    | gone hlog hq hw hn hcl hal => rw [hlog] at hm; simp at hm; exact hold hm
    | same hlog hq hw hn hcl hal => rw [hlog] at hm; exact hold hm

theorem inv_noq {s s' : St} (hI : Inv c s) (h : Case c s s') : ∀ n, Ev.returned n .no ∈ s'.log → ∀ p t, t ∈ s'.queue p → t.call ≠ n := by
  intro n hm p t ht hc
  subst hc
  by_cases hold : Ev.returned t.call .no ∈ s.log
  · by_cases hq : t ∈ s.queue p
    · exact hI.noq _ hold p t hq rfl
    · obtain ⟨es, hlog, hN⟩ := case_new h
      cases hN with
      | fresh h1 h2 h3 h4 h5 =>
        rcases h3 p t ht with h6 | h6
        · exact hq h6
        · exact hI.unused hold (by rw [← h6]; rfl)
      | @run q u rest h1 h2 h3 h4 =>
        rw [h3] at ht; unfold upd at ht
        by_cases h : p = q
        · subst h; rw [if_pos rfl] at ht; exact hq (by rw [h2]; simp [ht])
        · rw [if_neg h] at ht; exact hq ht
      | resume h1 h2 h3 h4 h5 h6 => rw [h5] at ht; exact hq ht
      | other h1 h2 h3 h4 => exact hq (h3 p t ht)
  · cases h with
    | @now k q fn pre post hp hc ha hpost hlog hq hw hn hcl hal =>
      rw [hlog] at hm
      simp only [List.mem_append, List.mem_singleton] at hm
      rcases hm with hm | ((hm | hm) | hm) | hm
      · exact absurd hm hold
      · obtain ⟨i, h⟩ := mem_pre hp hm; cases h
      · cases fn <;> cases hm
      · obtain ⟨f, -, h⟩ := mem_ranEv.1 hm; cases h
      · rcases hpost with rfl | ⟨r, rfl, hr⟩
        · cases hm
        · simp only [Ev.returned.injEq] at hm; exact hr hm.2.symm
    | @direct f' on' r hlog hr hq hw hn hcl hal =>
      rw [hlog] at hm
      simp at hm
      rcases hm with hm | ⟨hm, -⟩
      · exact absurd hm hold
      · rw [hq] at ht; have := hI.qfresh ht; omega
    | @run q u rest hc hqp hlog hq hw hn hcl hal =>
      rw [hlog] at hm
      simp only [List.mem_append] at hm
      rcases hm with hm | hm | hm
      · exact absurd hm hold
      · obtain ⟨f', -, h⟩ := mem_ranEv.1 hm; cases h
      · cases hb : (bad c u.fn && !u.guarded) with
        | true => rw [hb] at hm; simp at hm
        | false => rw [hb] at hm; simp at hm
    | @lost k q fn r pre hp hc hlog hq hw hn hcl hal =>
      rw [hlog] at hm
      simp only [List.mem_append, List.mem_cons, List.not_mem_nil, or_false] at hm
      rcases hm with hm | hm | hm | hm
      · exact absurd hm hold
      · obtain ⟨i, h⟩ := mem_pre hp hm; cases h
      · cases fn <;> cases hm
      · simp at hm; rw [hq] at ht; have := hI.qfresh ht; omega
    | @put k q fn pre r hp hc ha hr hlog hq hw hn hcl hal =>
      rw [hlog] at hm
      simp only [List.mem_append, List.mem_singleton] at hm
      rcases hm with hm | (hm | hm) | hm
      · exact absurd hm hold
      · obtain ⟨i, h⟩ := mem_pre hp hm; cases h
      · cases fn <;> cases hm
      · by_cases hk : k = .wait
        · simp [hk] at hm
        · simp [hk] at hm; exact hr hm.2.symm
    | deadWill hlog hq hw hn hcl hal => rw [hlog] at hm; simp at hm; exact hold hm
    | resume hm' hnq hlog hq hw hn hcl hal =>
      rw [hlog] at hm; simp at hm
      rcases hm with hm | ⟨-, hm⟩
      · exact hold hm
      · exact (hI.wask _ _ _ hm').1 hm.symm
    | stop hlog hq hw hn hcl hal => rw [hlog] at hm; simp at hm; exact hold hm
    | reuse hlog hq hw hn hcl hal => rw [hlog] at hm; simp at hm; exact hold hm
    | gone hlog hq hw hn hcl hal => rw [hlog] at hm; simp at hm; exact hold hm
    | same hlog hq hw hn hcl hal => rw [hlog] at hm; exact hold hm

/-- Calls say nothing about processors. -/
theorem New.quiet {s s' : St} {es : List Ev} (h : Case c s s') (hes : s'.log = s.log ++ es) :
    ((∀ e ∈ es, e.quiet = true) ∧ s'.closed = s.closed ∧ s'.alive = s.alive) ∨
    (∃ p, es = [.stopped p] ∧ s'.closed = upd s.closed p true ∧ s'.alive = s.alive) ∨
    (∃ p, es = [.reused p] ∧ s'.closed = upd s.closed p false ∧ s'.alive = s.alive) ∨
    (∃ p, es = [.gone p] ∧ s'.closed = s.closed ∧ s'.alive = upd s.alive p false) := by
  have hcan : ∀ {x : List Ev}, s'.log = s.log ++ x → es = x := by
    intro x hx; rw [hes] at hx; exact List.append_cancel_left hx
  have qnum : ∀ {e : Ev} {n}, e.num = some n → e.quiet = true := by
    intro e n h; cases e <;> first | rfl | cases h
  obtain ⟨es', hlog', hN⟩ := case_new h
  have := hcan hlog'; subst this
  have qfresh : (∀ e ∈ es, e = .terminated ∨ e.num = some s.next) → ∀ e ∈ es, e.quiet = true := by
    intro h e he; rcases h e he with rfl | h
    · rfl
    · exact qnum h
  cases h with
  | lost hp hc hlog hq hw hn hcl hal =>
    refine .inl ⟨?_, hcl, hal⟩
    cases hN with
    | fresh h1 h2 => exact qfresh h2
    | run h1 => omega
    | resume h1 => omega
    | other h1 => omega
  | put hp hc ha hr hlog hq hw hn hcl hal =>
    refine .inl ⟨?_, hcl, hal⟩
    cases hN with
    | fresh h1 h2 => exact qfresh h2
    | run h1 => omega
    | resume h1 => omega
    | other h1 => omega
  | now hp hc ha hpost hlog hq hw hn hcl hal =>
    refine .inl ⟨?_, hcl, hal⟩
    cases hN with
    | fresh h1 h2 => exact qfresh h2
    | run h1 => omega
    | resume h1 => omega
    | other h1 => omega
  | direct hlog hr hq hw hn hcl hal =>
    refine .inl ⟨?_, hcl, hal⟩
    cases hN with
    | fresh h1 h2 => exact qfresh h2
    | run h1 => omega
    | resume h1 => omega
    | other h1 => omega
  | deadWill hlog hq hw hn hcl hal =>
    refine .inl ⟨?_, hcl, hal⟩
    cases hN with
    | fresh h1 h2 => exact qfresh h2
    | run h1 => omega
    | resume h1 => omega
    | other h1 => omega
  | @run q u rest hc hqp hlog hq hw hn hcl hal =>
    refine .inl ⟨?_, hcl, hal⟩
    rw [hcan hlog]; intro e he
    rcases List.mem_append.1 he with he | he
    · obtain ⟨f, -, rfl⟩ := mem_ranEv.1 he; rfl
    · cases hb : (bad c u.fn && !u.guarded) with
      | true => rw [hb] at he; simp at he; subst he; rfl
      | false => rw [hb] at he; simp at he
  | resume hm' hnq hlog hq hw hn hcl hal =>
    refine .inl ⟨?_, hcl, hal⟩
    rw [hcan hlog]; intro e he; simp at he; subst he; rfl
  | stop hlog hq hw hn hcl hal => exact .inr (.inl ⟨_, hcan hlog, hcl, hal⟩)
  | reuse hlog hq hw hn hcl hal => exact .inr (.inr (.inl ⟨_, hcan hlog, hcl, hal⟩))
  | gone hlog hq hw hn hcl hal => exact .inr (.inr (.inr ⟨_, hcan hlog, hcl, hal⟩))
  | same hlog hq hw hn hcl hal =>
    refine .inl ⟨?_, hcl, hal⟩
    rw [hcan (x := []) (by simpa using hlog)]; intro e he; cases he

theorem inv_cl {s s' : St} (hI : Inv c s) (h : Case c s s') : (∀ p, s'.closed p = closedAfter p s'.log false) ∧ (∀ p, s'.alive p = true ↔ Ev.gone p ∉ s'.log) := by
  obtain ⟨es, hlog, -⟩ := case_new h
  rcases New.quiet h hlog with ⟨hq, h1, h2⟩ | ⟨q, rfl, h1, h2⟩ | ⟨q, rfl, h1, h2⟩ | ⟨q, rfl, h1, h2⟩
  · refine ⟨fun p => ?_, fun p => ?_⟩
    · rw [h1, hlog, closedAfter_append, closedAfter_quiet hq]; exact hI.cl p
    · rw [h2, hlog, hI.al p, List.mem_append]
      constructor
      · rintro h (h3 | h3)
        · exact h h3
        · cases hq _ h3
      · exact fun h h3 => h (.inl h3)
  · refine ⟨fun p => ?_, fun p => ?_⟩
    · rw [h1, hlog, closedAfter_append, ← hI.cl p]
      simp only [upd, closedAfter]
      by_cases hp : p = q
      · subst hp; simp
      · have : q ≠ p := fun e => hp e.symm
        simp [hp, this]
    · rw [h2, hlog, hI.al p]; simp
  · refine ⟨fun p => ?_, fun p => ?_⟩
    · rw [h1, hlog, closedAfter_append, ← hI.cl p]
      simp only [upd, closedAfter]
      by_cases hp : p = q
      · subst hp; simp
      · have : q ≠ p := fun e => hp e.symm
        simp [hp, this]
    · rw [h2, hlog, hI.al p]; simp
  · refine ⟨fun p => ?_, fun p => ?_⟩
    · rw [h1, hlog, closedAfter_append, ← hI.cl p]; rfl
    · rw [h2, hlog]
      simp only [upd]
      by_cases hp : p = q
      · subst hp; simp
      · rw [if_neg hp, hI.al p]; simp [hp]

theorem inv_step {s s' : St} {a : Act} (hI : Inv c s) (h : step c s a = some s') : Inv c s' :=
  have h := step_case h
  ⟨inv_fresh hI h, inv_open hI h, inv_qask hI h, inv_wask hI h, inv_uniq hI h, inv_nodup hI h, inv_ranq hI h, inv_noq hI h,
    (inv_cl hI h).1, (inv_cl hI h).2⟩

end Maf.Exe
