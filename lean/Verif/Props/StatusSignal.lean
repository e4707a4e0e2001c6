import Verif.Model.StatusSignal
import Verif.Lemmas.Hist
/-
C73: waiting for the status of a service.
-/
namespace Maf.Await

/-! ### Specification, in terms of what was observed -/

/-- The status that the signal was last told; at first, unavailable. -/
def statusIn (l : List Ev) : Avail := l.foldl (fun a e => match e with | .told b => b | _ => a) .unavailable

/-- The log of some run. -/
def Log (l : List Ev) : Prop := ∃ as s, run init as = some s ∧ s.log = l

/-- Call `n` waits for `w`, since `t`. -/
def WaitsFor (l : List Ev) (n : Nat) (w : Avail) (i : Option Nat) (t : Nat) : Prop := .waits n w i t ∈ l

/-! ### Proofs -/

@[simp] theorem statusIn_told (l : List Ev) (a : Avail) : statusIn (l ++ [.told a]) = a := by simp [statusIn]
@[simp] theorem statusIn_waits (l : List Ev) (n w i t) : statusIn (l ++ [.waits n w i t]) = statusIn l := by simp [statusIn]
@[simp] theorem statusIn_returned (l : List Ev) (n r t) : statusIn (l ++ [.returned n r t]) = statusIn l := by simp [statusIn]
@[simp] theorem statusIn_stopped (l : List Ev) : statusIn (l ++ [.stopped]) = statusIn l := by simp [statusIn]
@[simp] theorem statusIn_asked (l : List Ev) (a) : statusIn (l ++ [.asked a]) = statusIn l := by simp [statusIn]

/-- What every event of a log obeys. -/
def EvOk (l : List Ev) : Ev → Prop
  | .waits n _ _ _ => (∀ w i t, .waits n w i t ∉ l) ∧ ∀ r t, .returned n r t ∉ l
  | .returned n r t => (∀ r' t', .returned n r' t' ∉ l) ∧ ∃ w i t0, .waits n w i t0 ∈ l ∧ t0 ≤ t ∧ match r with
    | .ready => statusIn l = w ∧ .stopped ∉ l
    | .interrupted => .stopped ∈ l
    | .timeOut => statusIn l ≠ w ∧ .stopped ∉ l ∧ ∃ d, i = some d ∧ t0 + d ≤ t
  | .asked a => a = statusIn l
  | _ => True

structure Inv (s : State) : Prop where
  cur : s.current = statusIn s.log
  stop : s.stopped = true ↔ .stopped ∈ s.log
  hist : Hist EvOk s.log
  waits : ∀ n w i t, .waits n w i t ∈ s.log → n < s.next ∧ t ≤ s.now
  there : ∀ n, n < s.next → ∃ i t, .waits n (s.wait n).expected i t ∈ s.log ∧ (s.wait n).until_ = i.map fun d => t + d
  fresh : ∀ n, s.next ≤ n → s.pc n = .none
  begun : ∀ n, n < s.next → s.pc n ≠ .none
  back : ∀ n r t, .returned n r t ∈ s.log → s.pc n = .done
  isDone : ∀ n, s.pc n = .done → ∃ r t, .returned n r t ∈ s.log
  sleep : ∀ n, s.pc n = .asleep → pred s (s.wait n) = false
  late : ∀ n, s.pc n = .expired → ∃ t, (s.wait n).until_ = some t ∧ t ≤ s.now

theorem inv_init : Inv init := by
  refine ⟨rfl, ?_, Hist.nil, ?_, ?_, ?_, ?_, ?_, ?_, ?_, ?_⟩ <;> simp [init]

theorem lt_of_pc {s : State} (h : Inv s) {n : Nat} (hn : s.pc n ≠ .none) : n < s.next :=
  Nat.lt_of_not_le fun hc => hn (h.fresh n hc)

theorem not_back {s : State} (h : Inv s) {n : Nat} (hn : s.pc n ≠ .done) (r t) : .returned n r t ∉ s.log :=
  fun hc => hn (h.back n r t hc)

theorem inv_finish {s : State} (h : Inv s) {n : Nat} {r : WaitStatus} (h1 : s.pc n ≠ .none) (h2 : s.pc n ≠ .done)
    (hr : match (motive := WaitStatus → Prop) r with
      | .ready => s.current = (s.wait n).expected ∧ s.stopped = false
      | .interrupted => s.stopped = true
      | .timeOut => s.current ≠ (s.wait n).expected ∧ s.stopped = false ∧ ∃ t, (s.wait n).until_ = some t ∧ t ≤ s.now) : Inv (finish s n r) := by
  have hlt := lt_of_pc h h1
  obtain ⟨i, t, hw, hu⟩ := h.there n hlt
  have hns : s.stopped = false → Ev.stopped ∉ s.log := fun hf hc => by rw [h.stop.2 hc] at hf; cases hf
  refine ⟨by simpa [finish] using h.cur, by simpa [finish] using h.stop, h.hist.one ⟨not_back h h2, (s.wait n).expected, i, t, hw, (h.waits _ _ _ _ hw).2, ?_⟩, ?_, ?_, ?_, ?_, ?_, ?_, ?_, ?_⟩
  · cases r with
    | ready => exact ⟨h.cur ▸ hr.1, hns hr.2⟩
    | interrupted => exact h.stop.1 hr
    | timeOut =>
      obtain ⟨a, b, u, hu', c⟩ := hr
      refine ⟨h.cur ▸ a, hns b, ?_⟩
      cases i with
      | none => rw [hu'] at hu; cases hu
      | some d => rw [hu'] at hu; cases hu; exact ⟨d, rfl, c⟩
  · intro m w i t hm; simp [finish] at hm ⊢; exact h.waits _ _ _ _ hm
  · intro m hm; obtain ⟨i, t, a, b⟩ := h.there m hm; exact ⟨i, t, by simp [finish]; exact a, b⟩
  · intro m hm
    have : m ≠ n := by rintro rfl; exact absurd hlt (Nat.not_lt.2 hm)
    simp [finish, upd, this]; exact h.fresh m hm
  · intro m hm; simp only [finish, upd]; split
    · exact fun hc => by cases hc
    · exact h.begun m hm
  · intro m r' t' hm; simp [finish, upd] at hm ⊢
    by_cases hmn : m = n
    · exact fun hc => absurd hmn hc
    · intro; rcases hm with hm | hm
      · exact h.back _ _ _ hm
      · exact absurd hm.1 hmn
  · intro m hm; simp [finish, upd] at hm ⊢
    by_cases hmn : m = n
    · exact ⟨r, s.now, .inr ⟨hmn, rfl, rfl⟩⟩
    · obtain ⟨r', t', hx⟩ := h.isDone m (hm hmn); exact ⟨r', t', .inl hx⟩
  · intro m hm; simp only [finish, upd] at hm; split at hm
    · cases hm
    · exact h.sleep m hm
  · intro m hm; simp only [finish, upd] at hm; split at hm
    · cases hm
    · exact h.late m hm

/-- A wait goes from one place to another, between its begin and its end. -/
theorem inv_move {s : State} (h : Inv s) {n : Nat} {p : Pc} (h1 : s.pc n ≠ .none) (h2 : s.pc n ≠ .done) (h3 : p ≠ .none) (h4 : p ≠ .done)
    (ha : p = .asleep → pred s (s.wait n) = false) (he : p = .expired → ∃ t, (s.wait n).until_ = some t ∧ t ≤ s.now) : Inv { s with pc := upd s.pc n p } := by
  have hlt := lt_of_pc h h1
  refine ⟨h.cur, h.stop, h.hist, h.waits, h.there, ?_, ?_, ?_, ?_, ?_, ?_⟩
  · intro m hm
    have : m ≠ n := by rintro rfl; exact absurd hlt (Nat.not_lt.2 hm)
    simp [upd, this]; exact h.fresh m hm
  · intro m hm; simp only [upd]; split
    · exact h3
    · exact h.begun m hm
  · intro m r t hm; simp only [upd]; split
    · rename_i hmn; subst hmn; exact absurd (h.back _ _ _ hm) h2
    · exact h.back _ _ _ hm
  · intro m hm; simp only [upd] at hm; split at hm
    · exact absurd hm h4
    · exact h.isDone m hm
  · intro m hm; simp only [upd] at hm; split at hm
    · rename_i hmn; subst hmn; exact ha hm
    · exact h.sleep m hm
  · intro m hm; simp only [upd] at hm; split at hm
    · rename_i hmn; subst hmn; exact he hm
    · exact h.late m hm

/-- Everyone is woken, and something of no wait is logged. -/
theorem inv_wake {s : State} (h : Inv s) {a : Avail} {b : Bool} {e : Ev} (hc : a = statusIn (s.log ++ [e])) (hb : b = true ↔ .stopped ∈ s.log ++ [e])
    (h1 : EvOk s.log e) (h2 : ∀ n w i t, e ≠ .waits n w i t) (h3 : ∀ n r t, e ≠ .returned n r t) :
    Inv { s with current := a, stopped := b, pc := wakeAll s.pc, log := s.log ++ [e] } := by
  refine ⟨hc, hb, h.hist.one h1, ?_, ?_, ?_, ?_, ?_, ?_, ?_, ?_⟩
  · intro n w i t hm; simp at hm
    rcases hm with hm | hm
    · exact h.waits _ _ _ _ hm
    · exact absurd hm.symm (h2 _ _ _ _)
  · intro n hn; obtain ⟨i, t, a, b⟩ := h.there n hn; exact ⟨i, t, List.mem_append_left _ a, b⟩
  · intro n hn; have := h.fresh n hn; simp only [wakeAll, this]; rfl
  · intro n hn; have := h.begun n hn; simp only [wakeAll]; split
    · exact fun hc => by cases hc
    · exact this
  · intro n r t hm; simp at hm
    rcases hm with hm | hm
    · have := h.back _ _ _ hm; simp only [wakeAll, this]; rfl
    · exact absurd hm.symm (h3 _ _ _)
  · intro n hn; simp only [wakeAll] at hn; split at hn
    · cases hn
    · obtain ⟨r, t, hm⟩ := h.isDone n hn; exact ⟨r, t, List.mem_append_left _ hm⟩
  · intro n hn; simp only [wakeAll] at hn; split at hn
    · cases hn
    · rename_i hc; exact absurd hn hc
  · intro n hn; simp only [wakeAll] at hn; split at hn
    · cases hn
    · exact h.late n hn

theorem found_ok {s : State} {w : Wait} (h : pred s w = true) :
    match (motive := WaitStatus → Prop) found s with
      | .ready => s.current = w.expected ∧ s.stopped = false
      | .interrupted => s.stopped = true
      | .timeOut => s.current ≠ w.expected ∧ s.stopped = false ∧ ∃ t, w.until_ = some t ∧ t ≤ s.now := by
  unfold found
  cases hs : s.stopped with
  | true => exact rfl
  | false =>
    simp [pred, hs] at h
    exact ⟨h.symm, rfl⟩

theorem inv_step {s s' : State} (h : Inv s) {a : Act} (hs : step s a = some s') : Inv s' := by
  cases a with
  | wait e i =>
    simp only [step, Option.some.injEq] at hs; subst hs
    have hno : ∀ w i t, .waits s.next w i t ∉ s.log := fun w i t hc => Nat.lt_irrefl _ (h.waits _ _ _ _ hc).1
    have hnr : ∀ r t, .returned s.next r t ∉ s.log := fun r t hc => by
      have := h.back _ _ _ hc; rw [h.fresh _ (Nat.le_refl _)] at this; cases this
    refine ⟨by simpa using h.cur, by simpa using h.stop, h.hist.one ⟨hno, hnr⟩, ?_, ?_, ?_, ?_, ?_, ?_, ?_, ?_⟩
    · intro n w j t hm; simp at hm
      rcases hm with hm | ⟨rfl, -, -, rfl⟩
      · exact ⟨Nat.lt_succ_of_lt (h.waits _ _ _ _ hm).1, (h.waits _ _ _ _ hm).2⟩
      · exact ⟨Nat.lt_succ_self _, Nat.le_refl _⟩
    · intro n hn
      by_cases hx : n = s.next
      · subst hx; exact ⟨i, s.now, by simp [upd], by simp [upd]⟩
      · obtain ⟨j, t, a, b⟩ := h.there n (Nat.lt_of_le_of_ne (Nat.le_of_lt_succ hn) hx)
        exact ⟨j, t, by simp only [upd, if_neg hx]; exact List.mem_append_left _ a, by simp only [upd, if_neg hx]; exact b⟩
    · intro n hn
      have hx : n ≠ s.next := by rintro rfl; exact Nat.lt_irrefl _ hn
      simp only [upd, if_neg hx]; exact h.fresh n (Nat.le_of_succ_le hn)
    · intro n hn; simp only [upd]; split
      · exact fun hc => by cases hc
      · rename_i hx; exact h.begun n (Nat.lt_of_le_of_ne (Nat.le_of_lt_succ hn) hx)
    · intro n r t hm; simp at hm
      have hx : n ≠ s.next := by rintro rfl; exact hnr _ _ hm
      simp only [upd, if_neg hx]; exact h.back _ _ _ hm
    · intro n hn; simp only [upd] at hn; split at hn
      · cases hn
      · obtain ⟨r, t, hm⟩ := h.isDone n hn; exact ⟨r, t, List.mem_append_left _ hm⟩
    · intro n hn; simp only [upd] at hn; split at hn
      · cases hn
      · rename_i hx; have := h.sleep n hn; simpa [pred, upd, hx] using this
    · intro n hn; simp only [upd] at hn; split at hn
      · cases hn
      · rename_i hx; have := h.late n hn; simpa only [upd, if_neg hx] using this
  | look n =>
    simp only [step] at hs
    split at hs
    · rename_i hp
      have h1 : s.pc n ≠ .none := by rw [hp]; exact fun h => by cases h
      have h2 : s.pc n ≠ .done := by rw [hp]; exact fun h => by cases h
      split at hs
      · rename_i hq; cases hs
        exact inv_finish h h1 h2 (found_ok hq)
      · rename_i hq; cases hs
        exact inv_move h h1 h2 (fun h => by cases h) (fun h => by cases h) (fun _ => by simpa using hq) (fun h => by cases h)
    · split at hs
      · rename_i hp
        have h1 : s.pc n ≠ .none := by rw [hp]; exact fun h => by cases h
        have h2 : s.pc n ≠ .done := by rw [hp]; exact fun h => by cases h
        split at hs
        · rename_i hq; cases hs
          exact inv_finish h h1 h2 (found_ok hq)
        · rename_i hq; cases hs
          have hq' : (s.wait n).expected ≠ s.current ∧ s.stopped = false := by simpa [pred] using hq
          exact inv_finish h h1 h2 (r := .timeOut) ⟨fun hc => hq'.1 hc.symm, hq'.2, h.late n hp⟩
      · cases hs
  | spurious n =>
    simp only [step] at hs
    split at hs
    · rename_i hp; cases hs
      exact inv_move h (by rw [hp]; exact fun h => by cases h) (by rw [hp]; exact fun h => by cases h) (fun h => by cases h) (fun h => by cases h) (fun h => by cases h) (fun h => by cases h)
    · cases hs
  | expire n =>
    simp only [step] at hs
    split at hs
    · rename_i hp; cases hs
      refine inv_move h (by rw [hp.1]; exact fun h => by cases h) (by rw [hp.1]; exact fun h => by cases h) (fun h => by cases h) (fun h => by cases h) (fun h => by cases h) (fun _ => ?_)
      have := hp.2
      cases hu : (s.wait n).until_ with
      | none => rw [hu] at this; cases this
      | some t => rw [hu] at this; exact ⟨t, rfl, by simpa using this⟩
    · cases hs
  | tell a =>
    simp only [step, Option.some.injEq] at hs; subst hs
    exact inv_wake h (b := s.stopped) (by simp) (by simpa using h.stop) trivial (fun _ _ _ _ h => by cases h) (fun _ _ _ h => by cases h)
  | stop =>
    simp only [step, Option.some.injEq] at hs; subst hs
    exact inv_wake h (a := s.current) (by simpa using h.cur) (by simp) trivial (fun _ _ _ _ h => by cases h) (fun _ _ _ h => by cases h)
  | ask =>
    simp only [step, Option.some.injEq] at hs; subst hs
    refine ⟨by simpa using h.cur, by simpa using h.stop, h.hist.one h.cur, ?_, ?_, h.fresh, h.begun, ?_, ?_, h.sleep, h.late⟩
    · intro n w i t hm; simp at hm; exact h.waits _ _ _ _ hm
    · intro n hn; obtain ⟨i, t, a, b⟩ := h.there n hn; exact ⟨i, t, List.mem_append_left _ a, b⟩
    · intro n r t hm; simp at hm; exact h.back _ _ _ hm
    · intro n hn; obtain ⟨r, t, hm⟩ := h.isDone n hn; exact ⟨r, t, List.mem_append_left _ hm⟩
  | tick =>
    simp only [step, Option.some.injEq] at hs; subst hs
    refine ⟨h.cur, h.stop, h.hist, fun n w i t hm => ⟨(h.waits _ _ _ _ hm).1, Nat.le_succ_of_le (h.waits _ _ _ _ hm).2⟩, h.there, h.fresh, h.begun, h.back, h.isDone, h.sleep, ?_⟩
    intro n hn; obtain ⟨t, a, b⟩ := h.late n hn; exact ⟨t, a, Nat.le_succ_of_le b⟩

theorem inv_run {s s' : State} (h : Inv s) {as : List Act} (hr : run s as = some s') : Inv s' := by
  induction as generalizing s with
  | nil => cases hr; exact h
  | cons a as ih =>
    simp only [run, Option.bind_eq_some_iff] at hr
    obtain ⟨s1, h1, h2⟩ := hr
    exact ih (inv_step h h1) h2

theorem Log.ok {l r : List Ev} {e : Ev} (h : Log (l ++ e :: r)) : EvOk l e := by
  obtain ⟨as, s, h1, h2⟩ := h
  exact (inv_run inv_init h1).hist.all l e r h2

/-- There is one begin of a wait. -/
theorem waits_one {l : List Ev} (h : Log l) {n : Nat} {w w' : Avail} {i i' : Option Nat} {t t' : Nat} (h1 : .waits n w i t ∈ l) (h2 : .waits n w' i' t' ∈ l) :
    w = w' ∧ i = i' ∧ t = t' := by
  obtain ⟨a, b, hab⟩ := List.append_of_mem h1
  obtain ⟨c, d, hcd⟩ := List.append_of_mem h2
  rcases places (hab.symm.trans hcd) with ⟨-, hx, -⟩ | ⟨x, hx, -⟩ | ⟨x, hx, -⟩
  · cases hx; exact ⟨rfl, rfl, rfl⟩
  · rw [hcd] at h; exact absurd (by rw [hx]; simp) (h.ok.1 w i t)
  · rw [hab] at h; exact absurd (by rw [hx]; simp) (h.ok.1 w' i' t')

/-! ### C73 -/

/-- C73: a wait that returns tells what was so at that moment. Ready: the status was the expected one, and nobody had stopped the signal.
Interrupted: somebody had. TimeOut: neither, and the interval had passed. -/
theorem wait_right {l r : List Ev} {n : Nat} {x : WaitStatus} {t t0 : Nat} {w : Avail} {i : Option Nat} (h : Log (l ++ .returned n x t :: r)) (hw : .waits n w i t0 ∈ l) :
    match x with
    | .ready => statusIn l = w ∧ .stopped ∉ l
    | .interrupted => .stopped ∈ l
    | .timeOut => statusIn l ≠ w ∧ .stopped ∉ l ∧ ∃ d, i = some d ∧ t0 + d ≤ t := by
  obtain ⟨-, w', i', t', hm, -, hk⟩ := h.ok
  obtain ⟨rfl, rfl, rfl⟩ := waits_one h (List.mem_append_left _ hw) (List.mem_append_left _ hm)
  cases x <;> exact hk

/-- C73: every return is the only one of a wait that began before. -/
theorem returns_once {l r : List Ev} {n : Nat} {x : WaitStatus} {t : Nat} (h : Log (l ++ .returned n x t :: r)) :
    (∃ w i t0, .waits n w i t0 ∈ l ∧ t0 ≤ t) ∧ (∀ y u, .returned n y u ∉ l) ∧ ∀ y u, .returned n y u ∉ r := by
  obtain ⟨h1, w, i, t0, h2, h3, -⟩ := h.ok
  refine ⟨⟨w, i, t0, h2, h3⟩, h1, fun y u hm => ?_⟩
  obtain ⟨a, b, rfl⟩ := List.append_of_mem hm
  have h' : Log ((l ++ .returned n x t :: a) ++ .returned n y u :: b) := by simpa using h
  exact h'.ok.1 x t (by simp)

/-- C73: `currentStatus` returns what the signal was last told. -/
theorem asked_right {l r : List Ev} {a : Avail} (h : Log (l ++ .asked a :: r)) : a = statusIn l := h.ok

/-- C73: nobody is left asleep. When the status is the expected one, or the signal is stopped, a wait that has not returned can go on,
and returns with its next step. -/
theorem wakes {as : List Act} {s : State} (h : run init as = some s) {n : Nat} {w : Avail} {i : Option Nat} {t : Nat} (hw : .waits n w i t ∈ s.log)
    (hn : ∀ r u, .returned n r u ∉ s.log) (hs : statusIn s.log = w ∨ .stopped ∈ s.log) :
    (∀ s', step s (.look n) = some s' → s'.log = s.log ++ [.returned n (if .stopped ∈ s.log then .interrupted else .ready) s.now]) ∧
      ∃ s', step s (.look n) = some s' := by
  have hi := inv_run inv_init h
  have hlt := (hi.waits _ _ _ _ hw).1
  obtain ⟨j, u, ha, -⟩ := hi.there n hlt
  obtain ⟨hx, -, -⟩ := waits_one ⟨as, s, h, rfl⟩ ha hw
  have hp : pred s (s.wait n) = true := by
    rcases hs with hs | hs
    · simp [pred, hx, hi.cur, hs]
    · simp [pred, hi.stop.2 hs]
  have hf : found s = if .stopped ∈ s.log then .interrupted else .ready := by
    unfold found
    by_cases hc : Ev.stopped ∈ s.log
    · rw [if_pos hc, hi.stop.2 hc]; rfl
    · rw [if_neg hc]
      cases hb : s.stopped with
      | true => exact absurd (hi.stop.1 hb) hc
      | false => rfl
  have key : step s (.look n) = some (finish s n (found s)) := by
    cases hpc : s.pc n with
    | none => exact absurd hpc (hi.begun n hlt)
    | looking => simp [step, hpc, hp]
    | asleep => have := hi.sleep n hpc; rw [hp] at this; cases this
    | expired => simp [step, hpc, hp]
    | done => obtain ⟨r, t, hm⟩ := hi.isDone n hpc; exact absurd hm (hn r t)
  rw [key]
  exact ⟨fun s' hs' => by cases hs'; rw [← hf]; rfl, _, rfl⟩

/-- C73: a timed wait ends: once its interval has passed, it needs at most three steps of its own to return, whatever the status is. -/
theorem timed_returns {as : List Act} {s : State} (h : run init as = some s) {n : Nat} {w : Avail} {d : Nat} {t : Nat} (hw : .waits n w (some d) t ∈ s.log)
    (hn : ∀ r u, .returned n r u ∉ s.log) (ht : t + d ≤ s.now) :
    ∃ bs s' r, bs.length ≤ 3 ∧ (∀ b ∈ bs, b = .look n ∨ b = .expire n) ∧ run s bs = some s' ∧ s'.log = s.log ++ [.returned n r s.now] := by
  have hi := inv_run inv_init h
  have hlt := (hi.waits _ _ _ _ hw).1
  obtain ⟨j, u, ha, hb⟩ := hi.there n hlt
  obtain ⟨hx, rfl, rfl⟩ := waits_one ⟨as, s, h, rfl⟩ ha hw
  have hany : (s.wait n).until_.any (fun t => decide (t ≤ s.now)) = true := by rw [hb]; simpa using ht
  cases hp : pred s (s.wait n) with
  | true =>
    have key : step s (.look n) = some (finish s n (found s)) := by
      cases hpc : s.pc n with
      | none => exact absurd hpc (hi.begun n hlt)
      | looking => simp [step, hpc, hp]
      | asleep => have := hi.sleep n hpc; rw [hp] at this; cases this
      | expired => simp [step, hpc, hp]
      | done => obtain ⟨r, t, hm⟩ := hi.isDone n hpc; exact absurd hm (hn r t)
    exact ⟨[.look n], _, found s, by simp, by simp, by simp [run, key]; rfl, rfl⟩
  | false =>
    have hp' (p : Nat → Pc) : pred { s with pc := p } (s.wait n) = false := hp
    cases hpc : s.pc n with
    | none => exact absurd hpc (hi.begun n hlt)
    | looking =>
      refine ⟨[.look n, .expire n, .look n], _, .timeOut, by simp, by simp, by simp [run, step, hpc, hp, hp', upd, hany]; rfl, rfl⟩
    | asleep =>
      refine ⟨[.expire n, .look n], _, .timeOut, by simp, by simp, by simp [run, step, hpc, hp, hp', upd, hany]; rfl, rfl⟩
    | expired =>
      refine ⟨[.look n], _, .timeOut, by simp, by simp, by simp [run, step, hpc, hp]; rfl, rfl⟩
    | done => obtain ⟨r, t, hm⟩ := hi.isDone n hpc; exact absurd hm (hn r t)

/-- Three waits: one that becomes ready, one that times out, one that is interrupted; and a status that comes and goes unnoticed by a fourth. -/
example : ∃ s, run init [.wait .available none, .look 0, .wait .unknown (some 2), .look 1, .tell .available, .look 0, .tick, .tick, .look 1, .expire 1, .look 1, .ask,
      .wait .unavailable none, .look 2, .tell .unavailable, .tell .available, .look 2, .stop, .look 2] = some s ∧
    s.log = [.waits 0 .available none 0, .waits 1 .unknown (some 2) 0, .told .available, .returned 0 .ready 0, .returned 1 .timeOut 2, .asked .available,
      .waits 2 .unavailable none 2, .told .unavailable, .told .available, .stopped, .returned 2 .interrupted 2] := ⟨_, rfl, rfl⟩

end Maf.Await
