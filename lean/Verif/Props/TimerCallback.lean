import Verif.Lemmas.TimerCallbackInv
/-
C111: a timer calls the function it was last given, and keeps it while it runs.

The history of a schedule (`State.log`) says when a timer was given a function (`given`, by `start` or `timeoutAfter`), when that was called and returned, and when it was destroyed
(`dropped`). `Executing l i c`: after `l`, the function `c` of timer `i` has been called and has not returned.
-/
namespace Maf.Tcb
open Maf.Tmr (Tm)

/-- The last `given` decides what a timer has. -/
theorem curIn_split {l : List Ev} {i : Tm} {c : Nat} (h : curIn l i = some c) : ∃ a b, l = a ++ .given i c :: b ∧ (∀ c', .given i c' ∉ b) ∧ .dropped i c ∉ b := by
  revert h
  refine snoc_induct (motive := fun l => curIn l i = some c → ∃ a b, l = a ++ .given i c :: b ∧ (∀ c', .given i c' ∉ b) ∧ .dropped i c ∉ b) (fun h => by cases h) ?_ l
  intro l e ih h
  rw [curIn_snoc] at h
  have old : curIn l i = some c → (∀ c', e ≠ .given i c') → e ≠ .dropped i c → ∃ a b, l ++ [e] = a ++ .given i c :: b ∧ (∀ c', .given i c' ∉ b) ∧ .dropped i c ∉ b := by
    intro h h1 h2
    obtain ⟨a, b, rfl, hb, hd⟩ := ih h
    refine ⟨a, b ++ [e], by simp, fun c' hm => ?_, fun hm => ?_⟩
    · rcases List.mem_append.1 hm with hm | hm
      · exact hb c' hm
      · exact h1 c' (List.mem_singleton.1 hm).symm
    · rcases List.mem_append.1 hm with hm | hm
      · exact hd hm
      · exact h2 (List.mem_singleton.1 hm).symm
  cases e with
  | given j x =>
    simp only [curStep] at h
    split at h
    · next e => subst e; cases h; exact ⟨l, [], rfl, by simp, by simp⟩
    · next e => exact old h (fun c' hc => e (by cases hc; rfl)) (by simp)
  | dropped j x =>
    simp only [curStep] at h
    split at h
    · cases h
    · next e => exact old h (by simp) (fun hc => by cases hc; exact e ⟨rfl, h⟩)
  | _ => exact old h (by simp) (by simp)

theorem ok_of {as : List Act} {s : State} (hr : run init as = some s) {l r : List Ev} {e : Ev} (h : s.log = l ++ e :: r) : EvOk l e :=
  (run_inv init_inv hr).hist.all l e r h

/-- The function that a timer calls is the one it was last given, that function has not been destroyed, and neither has the `Timer` object. -/
theorem called_last_given {as : List Act} {s : State} (hr : run init as = some s) {l r : List Ev} {i : Tm} {c : Nat} (h : s.log = l ++ .called i c :: r) :
    (∃ a b, l = a ++ .given i c :: b ∧ ∀ c', .given i c' ∉ b) ∧ .dropped i c ∉ l ∧ .destroyed i ∉ l := by
  obtain ⟨h1, -, h3, h4⟩ := ok_of hr h
  obtain ⟨a, b, e, hb, -⟩ := curIn_split h1
  exact ⟨⟨a, b, e, hb⟩, h3, h4⟩

/-- An empty function is never called. -/
theorem never_empty {as : List Act} {s : State} (hr : run init as = some s) (i : Tm) : .calledEmpty i ∉ s.log := by
  intro hm
  obtain ⟨l, r, e⟩ := List.append_of_mem hm
  exact ok_of hr e

/-- A function that is given is a new one, one that is destroyed was given and is destroyed once, and one that returns was called. -/
theorem dropped_once {as : List Act} {s : State} (hr : run init as = some s) {l r : List Ev} {i : Tm} {c : Nat} :
    (s.log = l ++ .given i c :: r → ∀ j, .given j c ∉ l) ∧
    (s.log = l ++ .dropped i c :: r → .given i c ∈ l ∧ .dropped i c ∉ l) ∧
    (s.log = l ++ .returned i c :: r → Executing l i c) :=
  ⟨fun h j => (ok_of hr h j).1, fun h => ⟨(ok_of hr h).1, (ok_of hr h).2.1⟩, fun h => ok_of hr h⟩

/-- A destroyed function is not called, and is not given again. -/
theorem dropped_silent {as : List Act} {s : State} (hr : run init as = some s) {l r : List Ev} {i : Tm} {c : Nat} (h : s.log = l ++ .dropped i c :: r) :
    .called i c ∉ r ∧ .given i c ∉ r := by
  constructor
  · intro hm
    obtain ⟨a, b, rfl⟩ := List.append_of_mem hm
    have := ok_of hr (l := l ++ .dropped i c :: a) (r := b) (e := .called i c) (by rw [h]; simp)
    exact this.2.2.1 (by simp)
  · intro hm
    obtain ⟨a, b, rfl⟩ := List.append_of_mem hm
    have := ok_of hr (l := l ++ .dropped i c :: a) (r := b) (e := .given i c) (by rw [h]; simp)
    exact (this i).2 (by simp)

/-- While the `Timer` object exists, the function it was last given is kept: a function is destroyed when the timer is given another one, after the `Timer` object is destroyed, or if
there never was one (`timeoutAfter`). -/
theorem kept_alive {as : List Act} {s : State} (hr : run init as = some s) {l r : List Ev} {i : Tm} {c : Nat} (h : s.log = l ++ .dropped i c :: r) :
    (∃ l' c', l = l' ++ [.given i c']) ∨ .destroyed i ∈ l ∨ .detached i ∈ l := (ok_of hr h).2.2.2

/-- Nothing is leaked: the functions of a timer without a `Timer` object are destroyed, unless it is scheduled, a loop of the processor waits for it, or one of them is being executed. -/
theorem all_dropped {as : List Act} {s : State} (hr : run init as = some s) {i : Tm} (hi : .destroyed i ∈ s.log ∨ .detached i ∈ s.log)
    (h1 : i ∉ s.t.records) (h2 : ∀ f ∈ s.t.stack, about f ≠ some i) (h3 : ∀ c, ¬ Executing s.log i c) {c : Nat} (hg : .given i c ∈ s.log) : .dropped i c ∈ s.log := by
  have hinv := run_inv init_inv hr
  have hrel : i ∈ s.released := by
    rcases hi with hi | hi
    · exact hinv.gone hi
    · exact hinv.detached hi
  have hu : referenced s i = false := by
    cases hc : referenced s i with
    | false => rfl
    | true =>
      rcases referenced_iff.1 hc with h | ⟨f, hf, h⟩ | ⟨x, hx, h⟩
      · exact absurd h h1
      · exact absurd h (h2 f hf)
      · match x, h with
        | some (j, c), h =>
          simp only [isOf, decide_eq_true_eq] at h
          subst h
          have := hinv.runs j c
          have hp := List.count_pos_iff.2 hx
          exact absurd (show Executing s.log j c by show _ < _; omega) (h3 c)
  rcases hinv.kept hg with h | h
  · exact h
  · rw [hinv.swept hrel hu] at h; cases h

/-- After `~Timer`, the timer's function is not called, and it is given no other. -/
theorem destroyed_silent {as : List Act} {s : State} (hr : run init as = some s) {l r : List Ev} {i : Tm} (h : s.log = l ++ .destroyed i :: r) (c : Nat) : .called i c ∉ r := by
  intro hm
  obtain ⟨a, b, rfl⟩ := List.append_of_mem hm
  have := ok_of hr (l := l ++ .destroyed i :: a) (r := b) (e := .called i c) (by rw [h]; simp)
  exact this.2.2.2 (by simp)

/-- A function that is destroyed while it is executed is destroyed by a `start` of its timer. -/
theorem dropped_running {as : List Act} {s : State} (hr : run init as = some s) {l r : List Ev} {i : Tm} {c : Nat} (h : s.log = l ++ .dropped i c :: r) (hx : Executing l i c) :
    ∃ l' c', l = l' ++ [.given i c'] := (ok_of hr h).2.2.1 hx

/-- Partial: the function is not destroyed while it is executed, provided that the timer is not given another one meanwhile. -/
theorem kept_running_partial {as : List Act} {s : State} (hr : run init as = some s) {i : Tm}
    (hno : ∀ l c r c', s.log = l ++ .given i c :: r → ¬ Executing l i c') {l r : List Ev} {c : Nat} (h : s.log = l ++ .dropped i c :: r) : ¬ Executing l i c := by
  intro hx
  obtain ⟨l', c', rfl⟩ := dropped_running hr h hx
  refine hno l' c' (.dropped i c :: r) c (by rw [h]; simp) ?_
  simpa [Executing] using hx

/-! ### A function that is destroyed while it is executed -/

/-- Timer 0 is started for 5 ms; when its callback is called, that starts the timer again. -/
def rearm : List Act :=
  [.base .post, .base .take, .base (.op (.start 0 5) [0]), .base .ret, .base .take, .base .look, .base (.tick 5), .base .waitOut, .base (.fire []), .base (.op (.start 0 5) [0])]

/-- Refuted in general: `start` from the timer's own callback destroys the function that is being executed. -/
theorem rearm_drops : ∃ s, run init rearm = some s ∧ s.log = [.given 0 0, .called 0 0, .given 0 1, .dropped 0 0] ∧ Executing [.given 0 0, .called 0 0, .given 0 1] 0 0 := by
  refine ⟨_, rfl, by decide +kernel, by unfold Executing; decide +kernel⟩

/-- A timer calls its function, its object is destroyed, and the function with it when it has returned; a `timeoutAfter` calls its function, and destroys it when it has returned. -/
def whole : List Act :=
  [.base .post, .base .take, .base (.op (.start 0 5) [0]), .timeoutAfter 1 7 [0, 1], .base .ret, .base .take, .base .look, .base .waitJob, .base (.fire []), .base .look,
   .base (.tick 5), .base .waitOut, .base (.fire [1]), .destroy 0 [], .base .ret, .base .look, .base (.tick 7), .base .waitOut, .base (.fire []), .base .ret]

/-- The hypotheses are met. -/
theorem whole_log : ∃ s, run init whole = some s ∧
    s.log = [.given 0 0, .given 1 1, .detached 1, .called 0 0, .destroyed 0, .returned 0 0, .dropped 0 0, .called 1 1, .returned 1 1, .dropped 1 1] ∧
    s.t.records = [] ∧ (∀ f ∈ s.t.stack, about f = none) ∧ ∀ i c, ¬ Executing s.log i c := by
  refine ⟨_, rfl, by decide +kernel, by decide +kernel, by decide +kernel, fun i c => ?_⟩
  have e : (((run init whole).get (by rfl)).log) = [.given 0 0, .given 1 1, .detached 1, .called 0 0, .destroyed 0, .returned 0 0, .dropped 0 0, .called 1 1, .returned 1 1, .dropped 1 1] := by decide +kernel
  intro h
  have h : Executing ((run init whole).get (by rfl)).log i c := h
  rw [e] at h
  simp only [Executing, List.count_cons, List.count_nil, beq_iff_eq, reduceCtorEq, if_false, Ev.called.injEq, Ev.returned.injEq] at h
  omega

/-- Nobody starts the timer from its own callback in `whole`. -/
example : ∃ s, run init whole = some s ∧ ∀ l c r c', s.log = l ++ .given 0 c :: r → ¬ Executing l 0 c' := by
  obtain ⟨s, h1, h2, -⟩ := whole_log
  refine ⟨s, h1, fun l c r c' e => ?_⟩
  rw [h2] at e
  match l, e with
  | [], _ => simp [Executing]
  | [_], e => simp at e
  | _ :: _ :: l, e =>
    simp only [List.cons_append, List.cons.injEq] at e
    have : .given 0 c ∈ ([.detached 1, .called 0 0, .destroyed 0, .returned 0 0, .dropped 0 0, .called 1 1, .returned 1 1, .dropped 1 1] : List Ev) := by rw [e.2.2]; simp
    simp at this

end Maf.Tcb
