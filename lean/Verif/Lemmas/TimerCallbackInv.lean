import Verif.Lemmas.TimerCallback
namespace Maf.Tcb
open Maf.Tmr (Tm Frame upd upd_same upd_other)

/-! ### Specification: what a history says -/

/-- What one event does to the function that timer `i` has. -/
def curStep (i : Tm) (cur : Option Nat) : Ev → Option Nat
  | .given j c => if j = i then some c else cur
  | .dropped j c => if j = i ∧ cur = some c then none else cur
  | _ => cur

/-- The function that timer `i` has: the one it was last given, unless that was destroyed since. -/
def curIn (l : List Ev) (i : Tm) : Option Nat := l.foldl (curStep i) none

/-- The function is being executed. -/
def Executing (l : List Ev) (i : Tm) (c : Nat) : Prop := l.count (.returned i c) < l.count (.called i c)

/-- What every event of a history may rely on. -/
def EvOk (l : List Ev) : Ev → Prop
  | .given i c => ∀ j, .given j c ∉ l ∧ .dropped i c ∉ l
  | .called i c => curIn l i = some c ∧ .given i c ∈ l ∧ .dropped i c ∉ l ∧ .destroyed i ∉ l
  | .calledEmpty _ => False
  | .returned i c => Executing l i c
  | .dropped i c => .given i c ∈ l ∧ .dropped i c ∉ l ∧ (Executing l i c → ∃ l' c', l = l' ++ [.given i c']) ∧
      ((∃ l' c', l = l' ++ [.given i c']) ∨ .destroyed i ∈ l ∨ .detached i ∈ l)
  | .destroyed i => .destroyed i ∉ l
  | .detached _ => True

theorem curIn_snoc (l : List Ev) (e : Ev) (i : Tm) : curIn (l ++ [e]) i = curStep i (curIn l i) e := by simp [curIn]

/-! ### The invariant -/

/-- Kept by every single effect. -/
structure Base (s : State) : Prop where
  cb_eq : ∀ i, s.cb i = curIn s.log i
  fresh : ∀ {i c}, .given i c ∈ s.log → c < s.next
  cur : ∀ {i c}, s.cb i = some c → .given i c ∈ s.log ∧ .dropped i c ∉ s.log
  kept : ∀ {i c}, .given i c ∈ s.log → .dropped i c ∈ s.log ∨ s.cb i = some c
  drops : ∀ {i c}, .dropped i c ∈ s.log → .given i c ∈ s.log
  runs : ∀ i c, s.log.count (.called i c) = s.log.count (.returned i c) + s.run.count (some (i, c))
  gone : ∀ {i}, .destroyed i ∈ s.log → i ∈ s.released
  detached : ∀ {i}, .detached i ∈ s.log → i ∈ s.released
  why : ∀ {i}, i ∈ s.released → .destroyed i ∈ s.log ∨ .detached i ∈ s.log
  hist : Hist EvOk s.log

/-- Kept by every step. -/
structure Inv (s : State) : Prop extends Base s where
  has : ∀ {i}, referenced s i = true → s.cb i ≠ none
  dead : ∀ {i}, .destroyed i ∈ s.log → (s.t.data i).running = false
  swept : ∀ {i}, i ∈ s.released → referenced s i = false → s.cb i = none

theorem Base.next_new {s : State} (h : Base s) {j : Tm} : .given j s.next ∉ s.log ∧ .dropped j s.next ∉ s.log :=
  ⟨fun e => Nat.lt_irrefl _ (h.fresh e), fun e => Nat.lt_irrefl _ (h.fresh (h.drops e))⟩

theorem Base.with_t {s : State} (h : Base s) (t : Tmr.State) : Base { s with t := t } :=
  ⟨h.cb_eq, h.fresh, h.cur, h.kept, h.drops, h.runs, h.gone, h.detached, h.why, h.hist⟩

theorem Base.detach {s : State} (h : Base s) (i : Tm) : Base { s with released := s.released ++ [i], log := s.log ++ [.detached i] } where
  cb_eq j := by rw [curIn_snoc]; exact h.cb_eq j
  fresh hg := h.fresh (by simpa using hg)
  cur hc := by simpa using h.cur hc
  kept hg := by simpa using h.kept (by simpa using hg)
  drops hd := by simpa using h.drops (by simpa using hd)
  runs j c := by simpa using h.runs j c
  gone hd := List.mem_append_left _ (h.gone (by simpa using hd))
  detached hd := by
    rcases List.mem_append.1 hd with hd | hd
    · exact List.mem_append_left _ (h.detached hd)
    · simp at hd; simp [hd]
  why {j} hj := by
    rcases List.mem_append.1 hj with hj | hj
    · rcases h.why hj with h | h <;> simp [h]
    · simp at hj; simp [hj]
  hist := h.hist.one trivial

theorem Base.destroy {s : State} (h : Base s) {i : Tm} (hi : i ∉ s.released) :
    Base { s with released := s.released ++ [i], log := s.log ++ [.destroyed i] } where
  cb_eq j := by rw [curIn_snoc]; exact h.cb_eq j
  fresh hg := h.fresh (by simpa using hg)
  cur hc := by simpa using h.cur hc
  kept hg := by simpa using h.kept (by simpa using hg)
  drops hd := by simpa using h.drops (by simpa using hd)
  runs j c := by simpa using h.runs j c
  gone hd := by
    rcases List.mem_append.1 hd with hd | hd
    · exact List.mem_append_left _ (h.gone hd)
    · simp at hd; simp [hd]
  detached hd := List.mem_append_left _ (h.detached (by simpa using hd))
  why {j} hj := by
    rcases List.mem_append.1 hj with hj | hj
    · rcases h.why hj with h | h <;> simp [h]
    · simp at hj; simp [hj]
  hist := h.hist.one (fun hd => hi (h.gone hd))

theorem Base.job {s : State} (h : Base s) : Base { s with run := none :: s.run } :=
  ⟨h.cb_eq, h.fresh, h.cur, h.kept, h.drops, fun i c => by simpa using h.runs i c, h.gone, h.detached, h.why, h.hist⟩

theorem Base.call {s : State} (h : Base s) {i : Tm} (hi : s.cb i ≠ none) (hd : .destroyed i ∉ s.log) : Base (call s i) := by
  obtain ⟨c, hc⟩ := Option.ne_none_iff_exists'.1 hi
  have e : Tcb.call s i = { s with run := some (i, c) :: s.run, log := s.log ++ [.called i c] } := by simp [Tcb.call, hc]
  rw [e]
  exact {
    cb_eq := fun j => by rw [curIn_snoc]; exact h.cb_eq j
    fresh := fun hg => h.fresh (by simpa using hg)
    cur := fun hc => by simpa using h.cur hc
    kept := fun hg => by simpa using h.kept (by simpa using hg)
    drops := fun hd => by simpa using h.drops (by simpa using hd)
    runs := fun j x => by
      have := h.runs j x
      simp only [List.count_append, List.count_cons, List.count_nil]
      by_cases e : (i, c) = (j, x)
      · cases e; simp; omega
      · have e1 : ¬ (Ev.called i c = Ev.called j x) := fun h => e (by cases h; rfl)
        have e2 : ¬ (some (i, c) = some (j, x)) := fun h => e (by cases h; rfl)
        simp only [beq_iff_eq, e1, e2, if_false]
        simpa using this
    gone := fun hd => h.gone (by simpa using hd)
    detached := fun hd => h.detached (by simpa using hd)
    why := fun hj => by rcases h.why hj with h | h <;> simp [h]
    hist := h.hist.one ⟨by rw [← h.cb_eq, hc], (h.cur hc).1, (h.cur hc).2, hd⟩ }

theorem Base.ret {s : State} (h : Base s) {i : Tm} {c : Nat} {rs : List (Option (Tm × Nat))} (hr : s.run = some (i, c) :: rs) :
    Base { s with run := rs, log := s.log ++ [.returned i c] } where
  cb_eq j := by rw [curIn_snoc]; exact h.cb_eq j
  fresh hg := h.fresh (by simpa using hg)
  cur hc := by simpa using h.cur hc
  kept hg := by simpa using h.kept (by simpa using hg)
  drops hd := by simpa using h.drops (by simpa using hd)
  runs j x := by
    have := h.runs j x
    rw [hr] at this
    simp only [List.count_append, List.count_cons, List.count_nil] at this ⊢
    by_cases e : (i, c) = (j, x)
    · cases e; simp at this ⊢; omega
    · have e1 : ¬ (Ev.returned i c = Ev.returned j x) := fun h => e (by cases h; rfl)
      have e2 : ¬ (some (i, c) = some (j, x)) := fun h => e (by cases h; rfl)
      simp only [beq_iff_eq, e1, e2, if_false] at this ⊢
      simpa using this
  gone hd := h.gone (by simpa using hd)
  detached hd := h.detached (by simpa using hd)
  why hj := by rcases h.why hj with h | h <;> simp [h]
  hist := h.hist.one (by
    have := h.runs i c
    rw [hr, List.count_cons_self] at this
    show _ < _
    omega)

theorem Base.ret_job {s : State} (h : Base s) {rs : List (Option (Tm × Nat))} (hr : s.run = none :: rs) : Base { s with run := rs } :=
  ⟨h.cb_eq, h.fresh, h.cur, h.kept, h.drops, fun i c => by have := h.runs i c; rw [hr] at this; simpa using this, h.gone, h.detached, h.why, h.hist⟩

theorem Base.give {s : State} (h : Base s) (i : Tm) : Base (give s i) := by
  have hn := fun j => h.next_new (j := j)
  have hok : EvOk s.log (.given i s.next) := fun j => ⟨(hn j).1, (hn i).2⟩
  cases hc : s.cb i with
  | none =>
    have e : Tcb.give s i = { s with cb := upd s.cb i (some s.next), next := s.next + 1, log := s.log ++ [.given i s.next] } := by simp [Tcb.give, hc]
    rw [e]
    exact {
      cb_eq := fun j => by
        rw [curIn_snoc]
        simp only [curStep]
        by_cases e : i = j
        · subst e; simp [upd_same]
        · rw [if_neg e, upd_other (fun h => e h.symm)]; exact h.cb_eq j
      fresh := fun {j x} hg => by
        simp at hg
        rcases hg with hg | ⟨-, rfl⟩
        · exact Nat.lt_succ_of_lt (h.fresh hg)
        · exact Nat.lt_succ_self _
      cur := fun {j x} hx => by
        by_cases e : j = i
        · subst e; simp only [upd_same, Option.some.injEq] at hx; subst hx; simp [(hn j).2]
        · simp only [upd_other e] at hx; simpa [e] using h.cur hx
      kept := fun {j x} hg => by
        simp at hg
        rcases hg with hg | ⟨rfl, rfl⟩
        · rcases h.kept hg with hd | hd
          · left; simp [hd]
          · right
            by_cases e : j = i
            · subst e; rw [hc] at hd; cases hd
            · simpa [upd_other e] using hd
        · right; simp [upd_same]
      drops := fun hd => by simp at hd; simp [h.drops hd]
      runs := fun j x => by simpa using h.runs j x
      gone := fun hd => h.gone (by simpa using hd)
      detached := fun hd => h.detached (by simpa using hd)
      why := fun hj => by rcases h.why hj with h | h <;> simp [h]
      hist := h.hist.one hok }
  | some c =>
    have e : Tcb.give s i = { s with cb := upd s.cb i (some s.next), next := s.next + 1, log := s.log ++ [.given i s.next, .dropped i c] } := by simp [Tcb.give, hc]
    have hlt : c < s.next := h.fresh (h.cur hc).1
    rw [e]
    exact {
      cb_eq := fun j => by
        have : s.log ++ [.given i s.next, .dropped i c] = (s.log ++ [.given i s.next]) ++ [.dropped i c] := by simp
        simp only
        rw [this, curIn_snoc, curIn_snoc]
        simp only [curStep]
        by_cases e : i = j
        · subst e; simp [upd_same]; omega
        · simp only [e, if_false, false_and]; rw [upd_other (fun h => e h.symm)]; exact h.cb_eq j
      fresh := fun {j x} hg => by
        simp at hg
        rcases hg with hg | ⟨-, rfl⟩
        · exact Nat.lt_succ_of_lt (h.fresh hg)
        · exact Nat.lt_succ_self _
      cur := fun {j x} hx => by
        by_cases e : j = i
        · subst e
          simp only [upd_same, Option.some.injEq] at hx
          subst hx
          simp [(hn j).2]
          omega
        · simp only [upd_other e] at hx; simpa [e] using h.cur hx
      kept := fun {j x} hg => by
        simp at hg
        rcases hg with hg | ⟨rfl, rfl⟩
        · rcases h.kept hg with hd | hd
          · left; simp [hd]
          · by_cases e : j = i
            · subst e; rw [hc] at hd; cases hd; left; simp
            · right; simpa [upd_other e] using hd
        · right; simp [upd_same]
      drops := fun hd => by
        simp at hd
        rcases hd with hd | ⟨rfl, rfl⟩
        · simp [h.drops hd]
        · simp [(h.cur hc).1]
      runs := fun j x => by simpa using h.runs j x
      gone := fun hd => h.gone (by simpa using hd)
      detached := fun hd => h.detached (by simpa using hd)
      why := fun hj => by rcases h.why hj with h | h <;> simp [h]
      hist := h.hist.two hok ⟨by simp [(h.cur hc).1], by simp [(h.cur hc).2], fun _ => ⟨_, _, rfl⟩, .inl ⟨_, _, rfl⟩⟩ }

/-! ### The end of the last shared pointer -/

theorem sweepOne_same (s : State) (i : Tm) : (sweepOne s i).t = s.t ∧ (sweepOne s i).run = s.run ∧ (sweepOne s i).released = s.released := by
  unfold sweepOne; split <;> (try split) <;> simp

theorem referenced_congr {s s' : State} (h1 : s'.t = s.t) (h2 : s'.run = s.run) (i : Tm) : referenced s' i = referenced s i := by simp [referenced, h1, h2]

theorem run_isOf {s : State} {i : Tm} {c : Nat} (h : s.run.any (isOf i) = false) : s.run.count (some (i, c)) = 0 := by
  rw [List.count_eq_zero]
  intro hm
  have := List.any_eq_false.1 h _ hm
  simp [isOf] at this

theorem Base.sweepOne {s : State} (h : Base s) {i : Tm} (hi : i ∈ s.released) : Base (sweepOne s i) := by
  unfold Tcb.sweepOne
  split
  · next c hc =>
    split
    · exact h
    · next hr =>
      have hr : s.run.any (isOf i) = false := by
        simp only [referenced, Bool.not_eq_true, Bool.or_eq_false_iff] at hr; exact hr.2
      exact {
        cb_eq := fun j => by
          rw [curIn_snoc]
          simp only [curStep]
          by_cases e : i = j
          · subst e; simp [upd_same, ← h.cb_eq, hc]
          · simp only [e, false_and, if_false]; rw [upd_other (fun h => e h.symm)]; exact h.cb_eq j
        fresh := fun hg => h.fresh (by simpa using hg)
        cur := fun {j x} hx => by
          by_cases e : j = i
          · subst e; simp [upd_same] at hx
          · simp only [upd_other e] at hx; simpa [e] using h.cur hx
        kept := fun {j x} hg => by
          rcases h.kept (by simpa using hg) with hd | hd
          · left; simp [hd]
          · by_cases e : j = i
            · subst e; rw [hc] at hd; cases hd; left; simp
            · right; simpa [upd_other e] using hd
        drops := fun hd => by
          simp at hd
          rcases hd with hd | ⟨rfl, rfl⟩
          · simp [h.drops hd]
          · simp [(h.cur hc).1]
        runs := fun j x => by simpa using h.runs j x
        gone := fun hd => h.gone (by simpa using hd)
        detached := fun hd => h.detached (by simpa using hd)
        why := fun hj => by rcases h.why hj with h | h <;> simp [h]
        hist := h.hist.one ⟨(h.cur hc).1, (h.cur hc).2, fun he => by
          have h1 := h.runs i c
          rw [run_isOf hr] at h1
          have h2 : s.log.count (.returned i c) < s.log.count (.called i c) := he
          omega, .inr (h.why hi)⟩ }
  · exact h

theorem sweepOne_cb {s : State} {i j : Tm} : (sweepOne s i).cb j = s.cb j ∨ (i = j ∧ referenced s i = false ∧ (sweepOne s i).cb j = none) := by
  unfold sweepOne
  split
  · split
    · exact .inl rfl
    · next hr =>
      by_cases e : j = i
      · subst e; exact .inr ⟨rfl, by simpa using hr, by simp [upd_same]⟩
      · exact .inl (by simp [upd_other e])
  · exact .inl rfl

theorem sweepOne_gone {s : State} {i : Tm} (h : referenced s i = false) : (sweepOne s i).cb i = none := by
  unfold sweepOne
  split
  · rw [if_neg (by simp [h])]; simp [upd_same]
  · assumption

theorem sweepOne_log {s : State} {i j : Tm} : (.destroyed j ∈ (sweepOne s i).log ↔ .destroyed j ∈ s.log) := by
  unfold sweepOne
  split
  · split <;> simp
  · rfl

/-- `sweep` for any list. -/
theorem sweep_list (is : List Tm) {s : State} (h : Base s) (his : ∀ i ∈ is, i ∈ s.released) (hh : ∀ {i}, referenced s i = true → s.cb i ≠ none) :
    let s' := is.foldl sweepOne s
    Base s' ∧ s'.t = s.t ∧ s'.run = s.run ∧ s'.released = s.released ∧ (∀ {i}, referenced s' i = true → s'.cb i ≠ none) ∧
      (∀ i, .destroyed i ∈ s'.log ↔ .destroyed i ∈ s.log) ∧ (∀ i, s.cb i = none → s'.cb i = none) ∧ ∀ i ∈ is, referenced s i = false → s'.cb i = none := by
  induction is generalizing s with
  | nil => exact ⟨h, rfl, rfl, rfl, hh, fun _ => Iff.rfl, fun _ h => h, fun _ h => by cases h⟩
  | cons a is ih =>
    obtain ⟨e1, e2, e3⟩ := sweepOne_same s a
    have hr := fun i => referenced_congr e1 e2 i
    obtain ⟨i1, i2, i3, i4, i5, i6, i7, i8⟩ := ih (h.sweepOne (his a List.mem_cons_self)) (fun i hi => by rw [e3]; exact his i (List.mem_cons_of_mem _ hi)) (fun {i} hi => by
      rw [hr] at hi
      rcases sweepOne_cb (s := s) (i := a) (j := i) with e | ⟨rfl, e, -⟩
      · rw [e]; exact hh hi
      · rw [hi] at e; cases e)
    refine ⟨i1, i2.trans e1, i3.trans e2, i4.trans e3, i5, fun i => (i6 i).trans sweepOne_log, fun i hi => i7 i ?_, fun i hi hu => ?_⟩
    · rcases sweepOne_cb (s := s) (i := a) (j := i) with e | ⟨-, -, e⟩
      · rw [e]; exact hi
      · exact e
    · rcases List.mem_cons.1 hi with rfl | hi
      · exact i7 _ (sweepOne_gone hu)
      · exact i8 i hi (by rw [hr]; exact hu)

/-- What is needed before the sweep. -/
theorem Inv.of_sweep {s : State} (h : Base s) (hh : ∀ {i}, referenced s i = true → s.cb i ≠ none) (hd : ∀ {i}, .destroyed i ∈ s.log → (s.t.data i).running = false) : Inv (sweep s) := by
  obtain ⟨h1, h2, h3, h4, h5, h6, -, h8⟩ := sweep_list s.released h (fun _ h => h) hh
  exact { h1 with
    has := h5
    dead := fun {i} hi => by unfold sweep at hi ⊢; rw [h2]; exact hd ((h6 i).1 hi)
    swept := fun {i} hi hr => by
      unfold sweep at hi hr ⊢
      rw [h4] at hi
      rw [referenced_congr h2 h3] at hr
      exact h8 i hi hr }

theorem referenced_iff {s : State} {i : Tm} :
    referenced s i = true ↔ i ∈ s.t.records ∨ (∃ f ∈ s.t.stack, about f = some i) ∨ ∃ x ∈ s.run, isOf i x = true := by
  simp [referenced, or_assoc]

/-- A stopped timer does not run. -/
theorem stop_running {s s' : Tmr.State} {r : List Tm} {i : Tm} (hs : Tmr.operate s r (.stop i) = some s') : (s'.data i).running = false := by
  simp only [Tmr.operate] at hs
  split at hs
  · next h => cases hs; exact h
  · split at hs
    · cases hs; simp [upd_same]
    · split at hs
      · split at hs
        · cases hs; split <;> simp [upd_same]
        · cases hs
      · split at hs
        · cases hs; simp [upd_same]
        · split at hs
          · split at hs
            · cases hs; simp [upd_same]
            · cases hs
          · cases hs; simp [upd_same]

theorem give_cb (s : State) (i j : Tm) : (give s i).cb j = if j = i then some s.next else s.cb j := by
  by_cases e : j = i
  · subst e; simp [give, upd_same]
  · simp [give, upd_other e, e]

theorem give_destroyed {s : State} {i j : Tm} : .destroyed j ∈ (give s i).log ↔ .destroyed j ∈ s.log := by
  unfold give; simp; split <;> simp

/-- After a step of the timers, what is referenced was referenced, or is being started. -/
theorem ref_step {s : State} {a : Tmr.Act} {t : Tmr.State} (hs : Tmr.step s.t a = some t) {i : Tm} (hi : referenced { s with t := t } i = true) :
    referenced s i = true ∨ ∃ d r, a = .op (.start i d) r := by
  rcases referenced_iff.1 hi with h | ⟨f, hf, h⟩ | h
  · rcases records_step hs h with h | h
    · exact .inl (referenced_iff.2 (.inl h))
    · exact .inr h
  · rcases frames_step hs hf h with h | h
    · exact .inl (referenced_iff.2 (.inr (.inl h)))
    · exact .inl (referenced_iff.2 (.inl h))
  · exact .inl (referenced_iff.2 (.inr (.inr h)))

theorem follow_inv {s : State} (h : Inv s) {a : Tmr.Act} {t : Tmr.State} (hal : allowed s a = true) (hs : Tmr.step s.t a = some t) : Inv (sweep (follow s t a)) := by
  have hdead : ∀ {i}, .destroyed i ∈ s.log → (t.data i).running = false := by
    intro i hi
    cases hr : (t.data i).running with
    | false => rfl
    | true =>
      rcases running_step hs hr with e | e
      · rw [h.dead hi] at e; cases e
      · simp only [allowed, e, decide_eq_true_eq] at hal; exact absurd (h.gone hi) hal
  have hbase := h.toBase.with_t t
  have hhas : (∀ i d r, a ≠ .op (.start i d) r) → ∀ {i}, referenced { s with t := t } i = true → s.cb i ≠ none := by
    intro hne i hi
    rcases ref_step hs hi with h1 | ⟨d, r, rfl⟩
    · exact h.has h1
    · exact absurd rfl (hne _ _ _)
  have plain : (∀ i d r, a ≠ .op (.start i d) r) → Inv (sweep { s with t := t }) := fun hne =>
    Inv.of_sweep hbase (hhas hne) hdead
  have job : (∀ i d r, a ≠ .op (.start i d) r) → Inv (sweep { s with t := t, run := none :: s.run }) := fun hne =>
    Inv.of_sweep hbase.job (fun {i} hi => hhas hne (i := i) (by
      rw [referenced_iff] at hi ⊢
      rcases hi with h | h | ⟨x, hx, h⟩
      · exact .inl h
      · exact .inr (.inl h)
      · rcases List.mem_cons.1 hx with rfl | hx
        · cases h
        · exact .inr (.inr ⟨x, hx, h⟩))) hdead
  have less : (∀ i d r, a ≠ .op (.start i d) r) → ∀ {x rs}, s.run = x :: rs → ∀ {i}, referenced { s with t := t, run := rs } i = true → s.cb i ≠ none := fun hne x rs hr i hi =>
    hhas hne (i := i) (by
      rw [referenced_iff] at hi ⊢
      rcases hi with h | h | ⟨y, hy, h⟩
      · exact .inl h
      · exact .inr (.inl h)
      · exact .inr (.inr ⟨y, by rw [hr]; exact List.mem_cons_of_mem _ hy, h⟩))
  unfold follow
  split
  · next j d r =>
    refine Inv.of_sweep (hbase.give j) (fun {i} hi => ?_) (fun {i} hi => ?_)
    · rw [give_cb]
      split
      · simp
      · next hne =>
        have : referenced { s with t := t } i = true := hi
        rcases ref_step hs this with h1 | ⟨d, r, e⟩
        · exact h.has h1
        · cases e; exact absurd rfl hne
    · exact hdead (give_destroyed.1 hi)
  · next r =>
    have hne : ∀ i d r', Tmr.Act.fire r ≠ .op (.start i d) r' := by intro i d r' e; cases e
    split
    · next j hj =>
      obtain ⟨f1, f, f2, f3⟩ := fired_step hs hj
      have hcb : s.cb j ≠ none := h.has (referenced_iff.2 (.inr (.inl ⟨f, f2, f3⟩)))
      obtain ⟨c, hc⟩ := Option.ne_none_iff_exists'.1 hcb
      have hnd : .destroyed j ∉ s.log := fun hd => by rw [h.dead hd] at f1; cases f1
      have e : call { s with t := t } j = { s with t := t, run := some (j, c) :: s.run, log := s.log ++ [.called j c] } := by simp [call, hc]
      refine Inv.of_sweep (hbase.call hcb hnd) (fun {i} hi => ?_) (fun {i} hi => ?_)
      · rw [e] at hi ⊢
        by_cases hij : j = i
        · subst hij; exact hcb
        · refine hhas hne (i := i) ?_
          rw [referenced_iff] at hi ⊢
          rcases hi with h | h | ⟨x, hx, h⟩
          · exact .inl h
          · exact .inr (.inl h)
          · rcases List.mem_cons.1 hx with rfl | hx
            · simp [isOf, hij] at h
            · exact .inr (.inr ⟨x, hx, h⟩)
      · rw [e] at hi ⊢
        exact hdead (by simpa using hi)
    · exact plain hne
  · split
    · exact job (by intro i d r' e; cases e)
    · exact plain (by intro i d r' e; cases e)
  · split
    · exact job (by intro i d r' e; cases e)
    · exact plain (by intro i d r' e; cases e)
  · split
    · next i c rs hr =>
      exact Inv.of_sweep (Base.ret hbase hr) (fun {i} hi => less (by intro i d r' e; cases e) hr hi) (fun {i} hi => hdead (by simpa using hi))
    · next x rs hne hr =>
      cases x with
      | none => exact Inv.of_sweep (Base.ret_job hbase hr) (fun {i} hi => less (by intro i d r' e; cases e) hr hi) hdead
      | some p => exact absurd rfl (hne p.1 p.2)
    · exact plain (by intro i d r' e; cases e)
  · next hn _ _ _ _ => exact plain (by intro i d r' e; subst e; exact hn _ _ _ rfl)

theorem step_inv {s s' : State} (h : Inv s) {a : Act} (hs : step s a = some s') : Inv s' := by
  cases a with
  | base a =>
    simp only [step] at hs
    split at hs
    · next hal =>
      obtain ⟨t, ht, rfl⟩ := Option.map_eq_some_iff.1 hs
      exact follow_inv h hal ht
    · cases hs
  | destroy i r =>
    simp only [step] at hs
    split at hs
    · cases hs
    · next hi =>
      obtain ⟨t, ht, rfl⟩ := Option.map_eq_some_iff.1 hs
      refine Inv.of_sweep ((h.toBase.with_t t).destroy hi) (fun {j} hj => ?_) (fun {j} hj => ?_)
      · rcases ref_step (s := s) ht (i := j) hj with h1 | ⟨d, r, e⟩
        · exact h.has h1
        · cases e
      · show (t.data j).running = false
        have hop : Tmr.operate (Tmr.touch s.t) r (.stop i) = some t ∨ False := by
          simp only [Tmr.step] at ht
          split at ht
          · cases ht
          · split at ht
            · exact .inl ht
            · cases ht
        rcases hop with hop | hf
        · rcases List.mem_append.1 hj with hj | hj
          · cases hr : (t.data j).running with
            | false => rfl
            | true =>
              rcases running_step ht hr with e | e
              · rw [h.dead hj] at e; cases e
              · simp only [target, Option.some.injEq] at e; subst e; exact absurd (h.gone hj) hi
          · simp at hj; subst hj; exact stop_running hop
        · exact hf.elim
  | timeoutAfter i d r =>
    simp only [step] at hs
    split at hs
    · cases hs
    · next hi =>
      obtain ⟨t, ht, rfl⟩ := Option.map_eq_some_iff.1 hs
      have hi : i ∉ s.released := fun e => hi (.inl e)
      refine Inv.of_sweep (((h.toBase.with_t t).give i).detach i) (fun {j} hj => ?_) (fun {j} hj => ?_)
      · show (give { s with t := t } i).cb j ≠ none
        rw [give_cb]
        split
        · simp
        · next hne =>
          have : referenced { s with t := t } j = true := hj
          rcases ref_step ht this with h1 | ⟨d, r, e⟩
          · exact h.has h1
          · cases e; exact absurd rfl hne
      · show (t.data j).running = false
        have hj : .destroyed j ∈ s.log := (give_destroyed (s := { s with t := t })).1 (by simpa using hj)
        cases hr : (t.data j).running with
        | false => rfl
        | true =>
          rcases running_step ht hr with e | e
          · rw [h.dead hj] at e; cases e
          · simp only [target, Option.some.injEq] at e; subst e; exact absurd (h.gone hj) hi

theorem init_inv : Inv init where
  cb_eq _ := rfl
  fresh h := by cases h
  cur h := by cases h
  kept h := by cases h
  drops h := by cases h
  runs _ _ := rfl
  gone h := by cases h
  detached h := by cases h
  why h := by cases h
  hist := Hist.nil
  has h := by simp [referenced, init, Tmr.init] at h
  dead h := by cases h
  swept h := by cases h

theorem run_inv {s s' : State} {as : List Act} (h : Inv s) (hr : run s as = some s') : Inv s' := by
  induction as generalizing s with
  | nil => cases hr; exact h
  | cons a as ih =>
    simp only [run] at hr
    obtain ⟨s1, h1, h2⟩ := Option.bind_eq_some_iff.1 hr
    exact ih (step_inv h h1) h2

end Maf.Tcb
