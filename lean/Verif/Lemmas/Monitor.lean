import Verif.Model.Monitor
import Verif.Lemmas.Timer

namespace Maf
namespace Mon
open Maf.Tmr (Tm Job Frame)

/-- No client is stopped or destroyed. -/
def Quiet (a : Act) : Prop := (∀ i, a ≠ .stop i) ∧ ∀ i, a ≠ .destroy i

def Work.isMon (i : Nat) : Work → Bool
  | .monitor j _ => j == i
  | _ => false

def Shape (fs : List Frame) (c : Option Work) : Prop :=
  (c = none ∧ (fs = [] ∨ fs = [.check] ∨ (∃ i dl, fs = [.waiting i dl]) ∨ ∃ i t, fs = [.waited i t])) ∨
  ((∃ w, c = some w) ∧ (fs = [.user] ∨ fs = [.user, .check] ∨ ∃ i t, fs = [.user, .held i t]))

def Waits (fs : List Frame) : Prop := (∃ i dl, fs = [.waiting i dl]) ∨ ∃ i t, fs = [.user, .held i t]

def On (i : Nat) (fs : List Frame) : Prop := (∃ dl, .waiting i dl ∈ fs) ∨ (∃ t, .held i t ∈ fs) ∨ ∃ t, .waited i t ∈ fs

def tok (s : State) (i : Nat) : Nat :=
  s.works.countP (Work.isMon i) + (s.cur.toList.countP (Work.isMon i)) + (if (s.t.data i).running then 1 else 0)

structure I (s : State) : Prop where
  ub : s.ub = false
  gone : ∀ i, s.gone i = false
  tub : s.t.ub = false
  opened : s.t.closed = false
  once : ∀ i, (s.t.data i).cyclic = false
  users : s.t.jobs.count .user = s.works.length
  noOver : Work.over ∉ s.works
  shape : Shape s.t.stack s.cur
  st : s.t.st = .waiting ↔ Waits s.t.stack
  recs : ∀ i ∈ s.t.records, (s.t.data i).running = true ∨ (∃ k, s.cur = some (.monitor i k)) ∧ s.t.stack = [.user, .check]
  front : ∀ i, On i s.t.stack → i ∈ s.t.records
  tok : ∀ i, tok s i = if s.started i then 1 else 0
  wait : ∀ i dl, s.t.stack = [.waiting i dl] → (s.t.data i).deadline = dl

theorem I_init : I init := by
  constructor <;> simp [init, Tmr.init, Shape, Waits, On, tok]

theorem I_submit {s : State} {w : Work} (h : I s) (hw : w ≠ .over) (hm : ∀ i, Work.isMon i w = false) : I (submit s w) := by
  obtain ⟨h1, h2, h3, h4, h5, h6, h7, h8, h9, h10, h11, h12, h13⟩ := h
  constructor <;> simp_all [submit, Tmr.push, tok, List.countP_append]
  exact fun h => hw h.symm

theorem I_start {s : State} {i : Nat} (h : I s) (hs : s.started i = false) : I (submit { s with started := Tmr.upd s.started i true } (.monitor i 0)) := by
  obtain ⟨h1, h2, h3, h4, h5, h6, h7, h8, h9, h10, h11, h12, h13⟩ := h
  constructor <;> simp_all [submit, Tmr.push, tok, List.countP_append, List.countP_cons, Work.isMon]
  intro j
  have := h12 j
  by_cases e : j = i
  · subst e
    rw [hs] at this
    simp only [Tmr.upd, if_true, beq_self_eq_true]
    simp only [Bool.false_eq_true, if_false] at this
    omega
  · have : ¬ i = j := fun h => e h.symm
    simp_all [Tmr.upd]

/-- What a step of the thread's processor does in the states that occur. -/
theorem take_eq {s : State} {j : Job} {js : List Job} (h : I s) (hc : s.cur = none) (hj : s.t.jobs = j :: js) {s' : State} (hs : step s .take = some s') :
    s.t.stack = [] ∧ taken s j (Tmr.begin { s.t with jobs := js } [] j) = some s' := by
  have hsh := h.shape
  simp only [step, h.ub, hc, hj, Tmr.step, h.tub, h.opened] at hs
  rcases hsh with ⟨_, e | e | ⟨i, dl, e⟩ | ⟨i, t, e⟩⟩ | ⟨⟨w, e⟩, _⟩
  all_goals first | (rw [hc] at e; cases e) | (rw [e] at hs; simp at hs)
  exact ⟨e, by simpa [h.opened, h.tub, e] using hs⟩

theorem I_begin {s s' : State} {j : Job} {js : List Job} (h : I s) (hc : s.cur = none) (hj : s.t.jobs = j :: js) (hst : s.t.stack = [])
    (hs : taken s j (Tmr.begin { s.t with jobs := js } [] j) = some s') : I s' := by
  have hw := h.st
  rw [hst] at hw
  simp only [Waits, reduceCtorEq, exists_const, or_false, iff_false, List.ne_cons_self] at hw
  have hu := h.users
  rw [hj] at hu
  obtain ⟨h1, h2, h3, h4, h5, h6, h7, h8, h9, h10, h11, h12, h13⟩ := h
  cases j with
  | user =>
    cases hwk : s.works with
    | nil => simp [taken, hwk] at hs
    | cons w ws =>
      simp only [taken, hwk, Option.some.injEq] at hs
      subst hs
      constructor <;> simp_all [Tmr.begin, Shape, Waits, On, tok, List.countP_cons]
  | check =>
    simp only [taken, Option.some.injEq] at hs
    subst hs
    constructor <;> simp_all [Tmr.begin, Shape, Waits, On, tok, List.countP_cons]
  | wake =>
    simp only [taken, Option.some.injEq] at hs
    subst hs
    constructor <;> simp_all [Tmr.begin, Tmr.ret, Shape, Waits, On, tok, List.countP_cons]

theorem I_take {s s' : State} (h : I s) (hs : step s .take = some s') : I s' := by
  cases hc : s.cur with
  | some w => simp [step, h.ub, hc] at hs
  | none =>
    cases hj : s.t.jobs with
    | nil => simp [step, h.ub, hc, hj] at hs
    | cons j js =>
      have k := take_eq h hc hj hs
      exact I_begin h hc hj k.1 k.2

theorem cur_none {s : State} (h : I s) (hne : ∀ fs, s.t.stack ≠ .user :: fs) : s.cur = none := by
  rcases h.shape with ⟨e, _⟩ | ⟨_, e | e | ⟨i, t, e⟩⟩
  · exact e
  all_goals exact absurd e (hne _)

theorem waitJob_eq {s : State} {s' : State} (h : I s) (hs : step s .waitJob = some s') :
    ∃ i dl j js, s.t.stack = [.waiting i dl] ∧ s.t.jobs = j :: js ∧ taken s j (Tmr.begin { s.t with jobs := js } [.held i false] j) = some s' := by
  have hsh := h.shape
  simp only [step, h.ub, Tmr.step, h.tub, h.opened] at hs
  rcases hsh with ⟨hc, e | e | ⟨i, dl, e⟩ | ⟨i, t, e⟩⟩ | ⟨hc, e | e | ⟨i, t, e⟩⟩ <;> rw [e] at hs <;> cases hj : s.t.jobs <;> simp [hj] at hs
  exact ⟨i, dl, _, _, e, rfl, by simpa [h.opened, h.tub, e] using hs⟩

theorem I_waitJob {s s' : State} (h : I s) (hs : step s .waitJob = some s') : I s' := by
  obtain ⟨i, dl, j, js, hst, hj, hs⟩ := waitJob_eq h hs
  have hc := cur_none h (by simp [hst])
  have hw := h.st
  rw [hst] at hw
  simp only [Waits, List.cons.injEq, and_true, Frame.waiting.injEq] at hw
  have hw := hw.2 (.inl ⟨i, dl, rfl, rfl⟩)
  have hu := h.users
  rw [hj] at hu
  have hi : i ∈ s.t.records := h.front i (by simp [On, hst])
  obtain ⟨h1, h2, h3, h4, h5, h6, h7, h8, h9, h10, h11, h12, h13⟩ := h
  cases j with
  | user =>
    cases hwk : s.works with
    | nil => simp [taken, hwk] at hs
    | cons w ws =>
      simp only [taken, hwk, Option.some.injEq] at hs
      subst hs
      constructor <;> simp_all [Tmr.begin, Shape, Waits, On, tok, List.countP_cons]
  | check =>
    simp only [taken, Option.some.injEq] at hs
    subst hs
    constructor <;> simp_all [Tmr.begin, Tmr.ret, Shape, Waits, On, tok, List.countP_cons]
  | wake =>
    simp only [taken, Option.some.injEq] at hs
    subst hs
    constructor <;> simp_all [Tmr.begin, Tmr.ret, Shape, Waits, On, tok, List.countP_cons]

theorem I_look {s s' : State} (h : I s) (hs : step s .look = some s') : I s' := by
  have hsh := h.shape
  simp only [step, h.ub, Tmr.step, h.tub] at hs
  rcases hsh with ⟨hc, e | e | ⟨i, dl, e⟩ | ⟨i, t, e⟩⟩ | ⟨hc, e | e | ⟨i, t, e⟩⟩ <;> rw [e] at hs <;> simp at hs
  have hw := h.st
  rw [e] at hw
  obtain ⟨h1, h2, h3, h4, h5, h6, h7, h8, h9, h10, h11, h12, h13⟩ := h
  cases hr : s.t.records with
  | nil =>
    rw [hr] at hs
    simp at hs
    subst hs
    constructor <;> simp_all [Tmr.ret, Shape, Waits, On, tok]
  | cons i r =>
    rw [hr] at hs
    simp only at hs
    obtain ⟨t, hs, rfl⟩ := hs
    split at hs <;> cases hs
    · constructor <;> simp_all [Shape, Waits, On, tok]
    · constructor <;> simp_all [Shape, Waits, On, tok]

theorem I_waitOut {s s' : State} (h : I s) (hs : step s .waitOut = some s') : I s' := by
  have hsh := h.shape
  simp only [step, h.ub, Tmr.step, h.tub] at hs
  rcases hsh with ⟨hc, e | e | ⟨i, dl, e⟩ | ⟨i, t, e⟩⟩ | ⟨hc, e | e | ⟨i, t, e⟩⟩ <;> rw [e] at hs <;> simp at hs
  have hw := h.st
  rw [e] at hw
  obtain ⟨h1, h2, h3, h4, h5, h6, h7, h8, h9, h10, h11, h12, h13⟩ := h
  obtain ⟨_, rfl⟩ := hs
  constructor <;> simp_all [Shape, Waits, On, tok]

/-- The callback of timer `i` begins. -/
def fired (s : State) (i : Nat) (r : List Tm) (tch : Bool) : State :=
  { s with
    t := Tmr.noteEmpty { s.t with st := .haveTimer, stack := [.user, .check], data := Tmr.upd s.t.data i { s.t.data i with running := false }, records := r,
                                   log := s.t.log ++ ((if tch then [Tmr.Ev.overran i] else []) ++ [.fired i s.t.now (s.t.data i).deadline false]) }
    cur := some (.monitor i (s.tuned i)) }

theorem noteEmpty_stack (t : Tmr.State) : (Tmr.noteEmpty t).stack = t.stack := by unfold Tmr.noteEmpty; split <;> rfl

theorem runs {s : State} (h : I s) {i : Nat} (hi : i ∈ s.t.records) (hc : s.cur = none) : (s.t.data i).running = true := by
  rcases h.recs i hi with e | ⟨⟨k, e⟩, _⟩
  · exact e
  · rw [hc] at e; cases e

theorem fire_stack {s s' : State} {r : List Tm} (h : I s) (hs : step s (.fire r) = some s') : ∃ i tch, s.t.stack = [.waited i tch] := by
  rcases h.shape with ⟨hc, e | e | ⟨i, dl, e⟩ | ⟨i, t, e⟩⟩ | ⟨hc, e | e | ⟨i, t, e⟩⟩
  all_goals first | exact ⟨i, t, e⟩ | (simp [step, h.ub, e] at hs)

theorem fire_iff {s s' : State} {r : List Tm} (h : I s) {i : Nat} {tch : Bool} (e : s.t.stack = [.waited i tch]) : step s (.fire r) = some s' ↔
    ((s.t.now < (s.t.data i).deadline ∧ s' = { s with t := { s.t with stack := [.check] } }) ∨
     ((s.t.data i).deadline ≤ s.t.now ∧ (∃ f rest, s.t.records = f :: rest ∧ Tmr.Order (Tmr.upd s.t.data i { s.t.data i with running := false }) s.t.heapOk rest r) ∧
       s' = fired s i r tch)) := by
  have hc := cur_none h (by simp [e])
  have hi : i ∈ s.t.records := h.front i (by simp [On, e])
  have hr := runs h hi hc
  have h4 := h.opened
  have h3 := h.tub
  have ho := h.once i
  simp only [step, h.ub, Tmr.step, h3, h4, e, Bool.false_eq_true, if_false, hr]
  by_cases hlt : s.t.now < (s.t.data i).deadline
  · rw [if_pos hlt]
    have : ¬ (s.t.data i).deadline ≤ s.t.now := by omega
    simp only [Option.map_some, Option.some.injEq, hlt, true_and, this, false_and, or_false, Tmr.ret]
    constructor
    · rintro rfl; simp [h3, h4]
    · rintro rfl; simp [h3, h4]
  · rw [if_neg hlt]
    cases hrec : s.t.records with
    | nil => rw [hrec] at hi; simp at hi
    | cons f rest =>
      simp only [hlt, false_and, false_or, ho, Bool.false_eq_true, if_false, Bool.true_eq_false]
      constructor
      · intro hs
        split at hs
        · next hor =>
          refine ⟨by omega, ⟨f, rest, rfl, hor⟩, ?_⟩
          simp only [Option.map_some, Option.some.injEq, noteEmpty_stack] at hs
          rw [← hs]
          simp [fired, h3, h4, ho, h.ub]
        · simp at hs
      · rintro ⟨_, ⟨f', rest', he, hor⟩, rfl⟩
        cases he
        rw [if_pos hor]
        simp [fired, noteEmpty_stack, h3, h4, ho, h.ub]

theorem noteEmpty_same (t : Tmr.State) : (Tmr.noteEmpty t).stack = t.stack ∧ (Tmr.noteEmpty t).data = t.data ∧ (Tmr.noteEmpty t).records = t.records ∧
    (Tmr.noteEmpty t).jobs = t.jobs ∧ (Tmr.noteEmpty t).ub = t.ub ∧ (Tmr.noteEmpty t).closed = t.closed ∧ (Tmr.noteEmpty t).now = t.now ∧ (Tmr.noteEmpty t).heapOk = t.heapOk ∧
    (t.st = .haveTimer → (Tmr.noteEmpty t).st ≠ .waiting) := by unfold Tmr.noteEmpty; split <;> simp_all

theorem I_fire {s s' : State} {r : List Tm} (h : I s) (hs : step s (.fire r) = some s') : I s' := by
  obtain ⟨i, tch, e⟩ := fire_stack h hs
  have hs := (fire_iff h e).1 hs
  have hc := cur_none h (by simp [e])
  have hw := h.st
  rw [e] at hw
  have hi : i ∈ s.t.records := h.front i (by simp [On, e])
  have hr := runs h hi hc
  rcases hs with ⟨hlt, rfl⟩ | ⟨hle, ⟨f, rest, hrec, hor⟩, rfl⟩
  · obtain ⟨h1, h2, h3, h4, h5, h6, h7, h8, h9, h10, h11, h12, h13⟩ := h
    constructor <;> simp_all [Shape, Waits, On, tok]
  · have hmem : ∀ j ∈ r, (s.t.data j).running = true := fun j hj =>
      runs h (by rw [hrec]; exact List.mem_cons_of_mem _ (hor.1.mem_iff.1 hj)) hc
    have hti := h.tok i
    obtain ⟨h1, h2, h3, h4, h5, h6, h7, h8, h9, h10, h11, h12, h13⟩ := h
    constructor
    all_goals simp only [fired, tok, (noteEmpty_same _).1, (noteEmpty_same _).2.1, (noteEmpty_same _).2.2.1, (noteEmpty_same _).2.2.2.1, (noteEmpty_same _).2.2.2.2.1, (noteEmpty_same _).2.2.2.2.2.1]
    · exact h1
    · exact h2
    · exact h3
    · exact h4
    · intro j; simp only [Tmr.upd]; split
      · exact h5 i
      · exact h5 j
    · exact h6
    · exact h7
    · simp [Shape]
    · exact ⟨fun hh => absurd hh ((noteEmpty_same _).2.2.2.2.2.2.2.2 rfl), by simp [Waits]⟩
    · intro j hj
      by_cases ej : j = i
      · simp [ej]
      · rw [Tmr.upd_other ej]
        exact .inl (hmem j hj)
    · simp [On]
    · intro j
      have := h12 j
      simp only [tok, hc] at this
      show _ = if s.started j then 1 else 0
      by_cases ej : j = i
      · subst ej
        rw [hr] at this
        simp only [Tmr.upd, if_true, Option.toList_some, List.countP_cons, List.countP_nil, Work.isMon, beq_self_eq_true, Option.toList_none, Bool.false_eq_true, if_false] at this ⊢
        omega
      · have hne : ¬ i = j := fun h => ej h.symm
        rw [← this, Tmr.upd_other ej]
        simp [Work.isMon, hne]
    · simp

/-- Client `i` has looked at its server. -/
def looked (s : State) (i k : Nat) (up ok : Bool) (r : List Tm) : State :=
  { s with
    t := { Tmr.touch s.t with
           data := Tmr.upd s.t.data i { s.t.data i with deadline := s.t.now + next (decide (s.status i ≠ up)) k, duration := next (decide (s.status i ≠ up)) k, running := true }
           log := s.t.log ++ [.started i s.t.now (next (decide (s.status i ≠ up)) k)], records := r, heapOk := s.t.heapOk && !s.t.records.contains i
           jobs := s.t.jobs ++ [.check] }
    cur := some .over, tuned := Tmr.upd s.tuned i (next (decide (s.status i ≠ up)) k)
    status := Tmr.upd s.status i (if up && !ok then s.status i else up)
    log := s.log ++ [.checked i up ok (next (decide (s.status i ≠ up)) k)] }

theorem mon_idle {s : State} (h : I s) {i k : Nat} (hc : s.cur = some (.monitor i k)) : (s.t.data i).running = false := by
  have := h.tok i
  simp only [tok, hc] at this
  cases e : (s.t.data i).running with
  | false => rfl
  | true =>
    simp [e, Work.isMon] at this
    split at this <;> omega

theorem user_stack {s : State} (h : I s) {w : Work} (hc : s.cur = some w) : ∃ fs, s.t.stack = .user :: fs := by
  rcases h.shape with ⟨e, _⟩ | ⟨_, e | e | ⟨i, t, e⟩⟩
  · rw [hc] at e; cases e
  all_goals exact ⟨_, e⟩

theorem work_mon_iff {s s' : State} {i k : Nat} {up ok : Bool} {r : List Tm} (h : I s) (hc : s.cur = some (.monitor i k)) : step s (.work up ok r) = some s' ↔
    Tmr.Order (Tmr.upd s.t.data i { s.t.data i with deadline := s.t.now + next (decide (s.status i ≠ up)) k, duration := next (decide (s.status i ≠ up)) k, running := true })
      (s.t.heapOk && !s.t.records.contains i) (s.t.records ++ [i]) r ∧ s' = looked s i k up ok r := by
  obtain ⟨fs, e⟩ := user_stack h hc
  have h4 := h.opened
  have h3 := h.tub
  generalize hN : next (decide (s.status i ≠ up)) k = N
  simp only [step, h.ub, perform, hc, h.gone i, Tmr.step, h3, e, Tmr.operate, Tmr.touch, mon_idle h hc, Bool.false_eq_true, if_false, Tmr.push, h4, hN]
  constructor
  · intro hs
    obtain ⟨t', ht, hs⟩ := Option.map_eq_some_iff.1 hs
    split at ht
    · next ho =>
      refine ⟨ho, ?_⟩
      cases ht
      rw [← hs]
      simp only [looked, hN]
      simp [Tmr.touch, e, h3, h4, h.ub]
    · cases ht
  · rintro ⟨ho, rfl⟩
    rw [if_pos ho]
    simp only [looked, hN]
    simp [Tmr.touch, e, h3, h4, h.ub]

theorem touch_shape {fs : List Frame} (h : fs = [.user] ∨ fs = [.user, .check] ∨ ∃ i t, fs = [.user, .held i t]) :
    (fs = [.user] ∧ fs.map Frame.touch = [.user]) ∨ (fs = [.user, .check] ∧ fs.map Frame.touch = [.user, .check]) ∨ ∃ i t, fs = [.user, .held i t] ∧ fs.map Frame.touch = [.user, .held i true] := by
  rcases h with rfl | rfl | ⟨i, t, rfl⟩
  · exact .inl ⟨rfl, rfl⟩
  · exact .inr (.inl ⟨rfl, rfl⟩)
  · exact .inr (.inr ⟨i, t, rfl, rfl⟩)

theorem user_shape {s : State} (h : I s) {w : Work} (hc : s.cur = some w) : s.t.stack = [.user] ∨ s.t.stack = [.user, .check] ∨ ∃ i t, s.t.stack = [.user, .held i t] := by
  rcases h.shape with ⟨e, _⟩ | ⟨_, e⟩
  · rw [hc] at e; cases e
  · exact e

theorem I_looked {s : State} {i k : Nat} {up ok : Bool} {r : List Tm} (h : I s) (hc : s.cur = some (.monitor i k)) (hr : ∀ j ∈ r, j ∈ s.t.records ∨ j = i)
    (hr' : ∀ j ∈ s.t.records, j ∈ r) : I (looked s i k up ok r) := by
  have hidle := mon_idle h hc
  have hsh := touch_shape (user_shape h hc)
  obtain ⟨h1, h2, h3, h4, h5, h6, h7, h8, h9, h10, h11, h12, h13⟩ := h
  unfold looked
  generalize next (decide (s.status i ≠ up)) k = N
  constructor
  all_goals dsimp only [Tmr.touch]
  · exact h1
  · exact h2
  · exact h3
  · exact h4
  · intro j
    by_cases ej : j = i
    · subst ej; simp only [Tmr.upd, if_true]; exact h5 j
    · rw [Tmr.upd_other ej]; exact h5 j
  · simpa using h6
  · exact h7
  · rcases hsh with ⟨e, e'⟩ | ⟨e, e'⟩ | ⟨i', t, e, e'⟩ <;> rw [e'] <;> simp [Shape]
  · rw [h9]
    rcases hsh with ⟨e, e'⟩ | ⟨e, e'⟩ | ⟨i', t, e, e'⟩ <;> rw [e', e] <;> simp [Waits]
  · intro j hj
    by_cases ej : j = i
    · subst ej; simp [Tmr.upd]
    · rw [Tmr.upd_other ej]
      rcases hr j hj with hj | hj
      · rcases h10 j hj with e | ⟨⟨k', e⟩, _⟩
        · exact .inl e
        · rw [hc] at e
          injection e with e
          injection e with e
          exact absurd e.symm ej
      · exact absurd hj ej
  · intro j hj
    apply hr'
    apply h11
    rcases hsh with ⟨e, e'⟩ | ⟨e, e'⟩ | ⟨i', t, e, e'⟩ <;> rw [e'] at hj <;> rw [e] <;> simpa [On] using hj
  · intro j
    have := h12 j
    show _ = if s.started j then 1 else 0
    simp only [tok, hc] at this ⊢
    by_cases ej : j = i
    · subst ej
      rw [hidle] at this
      simp only [Tmr.upd, if_true, Option.toList_some, List.countP_cons, List.countP_nil, Work.isMon, beq_self_eq_true, Bool.false_eq_true, if_false] at this ⊢
      omega
    · have hne : ¬ i = j := fun h => ej h.symm
      rw [← this]
      simp only [Tmr.upd_other ej]
      simp [Work.isMon, hne]
  · intro j dl hj
    rcases hsh with ⟨e, e'⟩ | ⟨e, e'⟩ | ⟨i', t, e, e'⟩ <;> rw [e'] at hj <;> cases hj

/-- The message being handled is done. -/
def handled (s : State) (e : Ev) : State := { s with cur := some .over, log := s.log ++ [e] }

theorem I_handled {s : State} {w : Work} {e : Ev} (h : I s) (hc : s.cur = some w) (hw : ∀ i, Work.isMon i w = false) : I (handled s e) := by
  obtain ⟨h1, h2, h3, h4, h5, h6, h7, h8, h9, h10, h11, h12, h13⟩ := h
  constructor <;> simp_all [handled, Shape, tok]
  · intro i hi
    rcases h10 i hi with e | ⟨⟨k, e⟩, _⟩
    · exact e
    · have := hw i
      simp [e, Work.isMon] at this
  · intro i
    rw [← h12 i]
    simp [Work.isMon]

theorem work_msg {s : State} {i m : Nat} {up ok : Bool} {r : List Tm} (h : I s) (hc : s.cur = some (.message i m)) : step s (.work up ok r) = some (handled s (.handled (.message i m))) := by
  simp [step, h.ub, perform, hc, h.gone, handled]

theorem work_srv {s : State} {i m : Nat} {up ok : Bool} {r : List Tm} (h : I s) (hc : s.cur = some (.server i m)) :
    step s (.work up ok r) = some (handled s (if s.srvGone i then .dropped (.server i m) else .handled (.server i m))) := by
  simp only [step, h.ub, perform, hc, handled, Bool.false_eq_true, if_false]
  split <;> simp

theorem I_work {s s' : State} {up ok : Bool} {r : List Tm} (h : I s) (hs : step s (.work up ok r) = some s') : I s' := by
  cases hc : s.cur with
  | none => simp [step, h.ub, perform, hc] at hs
  | some w =>
    cases w with
    | monitor i k =>
      obtain ⟨ho, rfl⟩ := (work_mon_iff h hc).1 hs
      exact I_looked h hc (fun j hj => by simpa using ho.1.mem_iff.1 hj) fun j hj => ho.1.mem_iff.2 (by simp [hj])
    | message i m => rw [work_msg h hc] at hs; cases hs; exact I_handled h hc fun _ => rfl
    | server i m => rw [work_srv h hc] at hs; cases hs; exact I_handled h hc fun _ => rfl
    | over => simp [step, h.ub, perform, hc] at hs

/-- The function returns. -/
theorem ret_iff {s s' : State} (h : I s) : step s .ret = some s' ↔ s.cur = some .over ∧
    ((s.t.stack = [.user] ∧ s' = { s with cur := none, t := { s.t with stack := [] } }) ∨
     (s.t.stack = [.user, .check] ∧ s' = { s with cur := none, t := { s.t with stack := [.check] } }) ∨
     (∃ i t, s.t.stack = [.user, .held i t] ∧ s' = { s with cur := none, t := { s.t with stack := [.waited i t], st := .haveTimer } })) := by
  have h1 := h.ub
  have h3 := h.tub
  cases hc : s.cur with
  | none => simp [step, h1, hc]
  | some w =>
    cases w with
    | over =>
      rcases user_shape h hc with e | e | ⟨i, t, e⟩
      · simp [step, h1, hc, Tmr.step, h3, e, Tmr.ret, eq_comm]
      · simp [step, h1, hc, Tmr.step, h3, e, Tmr.ret, eq_comm]
      · have k : step s .ret = some { s with cur := none, t := { s.t with stack := [.waited i t], st := .haveTimer } } := by simp [step, h1, hc, Tmr.step, h3, e, Tmr.ret]
        rw [k]
        constructor
        · intro hs
          cases hs
          exact ⟨rfl, .inr (.inr ⟨i, t, e, rfl⟩)⟩
        · rintro ⟨_, ⟨e', _⟩ | ⟨e', _⟩ | ⟨i', t', e', rfl⟩⟩
          · rw [e] at e'; cases e'
          · rw [e] at e'; cases e'
          · rw [e] at e'; cases e'; rfl
    | _ => simp [step, h1, hc]

theorem I_ret {s s' : State} (h : I s) (hs : step s .ret = some s') : I s' := by
  obtain ⟨hc, hs⟩ := (ret_iff h).1 hs
  obtain ⟨h1, h2, h3, h4, h5, h6, h7, h8, h9, h10, h11, h12, h13⟩ := h
  rcases hs with ⟨e, rfl⟩ | ⟨e, rfl⟩ | ⟨i, t, e, rfl⟩
  all_goals rw [e] at h9
  all_goals constructor <;> simp_all [Shape, Waits, On, tok, Work.isMon]

theorem I_step {s s' : State} {a : Act} (h : I s) (hq : Quiet a) (hs : step s a = some s') : I s' := by
  cases a with
  | start i =>
    cases e : s.started i with
    | true => simp [step, h.ub, e] at hs
    | false =>
      simp only [step, h.ub, e, Bool.false_eq_true, if_false, Option.some.injEq] at hs
      subst hs
      have := I_start h e
      rw [h.ub] at this
      exact this
  | arrive w =>
    have k : ∀ e, I { s with ub := false, log := s.log ++ [e] } := fun e => by
      obtain ⟨h1, h2, h3, h4, h5, h6, h7, h8, h9, h10, h11, h12, h13⟩ := h
      constructor <;> first | assumption | rfl
    cases w with
    | message i m =>
      simp only [step, h.ub, Bool.false_eq_true, if_false, Option.some.injEq] at hs
      subst hs
      exact I_submit (k _) (by simp) fun _ => rfl
    | server i m =>
      simp only [step, h.ub, Bool.false_eq_true, if_false, Option.some.injEq] at hs
      subst hs
      exact I_submit (k _) (by simp) fun _ => rfl
    | _ => simp [step, h.ub] at hs
  | stop i => exact absurd rfl (hq.1 i)
  | destroy i => exact absurd rfl (hq.2 i)
  | destroySrv i =>
    simp only [step, h.ub, Bool.false_eq_true, if_false, Option.some.injEq] at hs
    subst hs
    obtain ⟨h1, h2, h3, h4, h5, h6, h7, h8, h9, h10, h11, h12, h13⟩ := h
    constructor <;> first | assumption | rfl
  | tick n =>
    simp only [step, h.ub, Tmr.step, h.tub, Bool.false_eq_true, if_false, Option.map_some, Option.some.injEq] at hs
    subst hs
    obtain ⟨h1, h2, h3, h4, h5, h6, h7, h8, h9, h10, h11, h12, h13⟩ := h
    constructor <;> first | assumption | rfl
  | take => exact I_take h hs
  | waitJob => exact I_waitJob h hs
  | look => exact I_look h hs
  | waitOut => exact I_waitOut h hs
  | fire r => exact I_fire h hs
  | work up ok r => exact I_work h hs
  | ret => exact I_ret h hs

theorem I_run {as : List Act} : ∀ {s s' : State}, I s → (∀ a ∈ as, Quiet a) → run s as = some s' → I s' := by
  induction as with
  | nil => intro s s' h _ hr; cases hr; exact h
  | cons a as ih =>
    intro s s' h hq hr
    cases hst : step s a with
    | none => simp [run, hst] at hr
    | some s1 =>
      simp only [run, hst, Option.bind_some] at hr
      exact ih (I_step h (hq a (by simp)) hst) (fun a' ha => hq a' (by simp [ha])) hr

theorem run_append {as bs : List Act} : ∀ {s : State}, run s (as ++ bs) = (run s as).bind fun s' => run s' bs := by
  induction as with
  | nil => intro s; rfl
  | cons a as ih =>
    intro s
    simp only [List.cons_append, run]
    cases step s a <;> simp [ih]

end Mon
end Maf
