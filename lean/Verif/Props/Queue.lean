import Verif.Lemmas.Queue
/-
Properties C15, C16, C17, C54 (and the queue half of C47): the thread-safe queue.

All theorems are about every run `run k (init α) acts = some s`: any number of threads,
any programs, any schedule.
-/
namespace Maf.Q
variable {α : Type}

/-! ### Specification: reading the log -/

/-- Elements in the order in which they entered. -/
def entries (l : List (Ev α)) : List α :=
  l.filterMap fun | .entered _ x => some x | _ => none

/-- Elements in the order in which they left, handed to a consumer or discarded. -/
def exits (l : List (Ev α)) : List α :=
  l.filterMap fun | .got _ x => some x | .cleared x => some x | _ => none

/-- Elements of thread `t`'s pushes that found the queue open, in program order. -/
def acceptedBy (t : Tid) (l : List (Ev α)) : List α :=
  l.flatMap fun | .accepted u xs => if u = t then xs else [] | _ => []

/-- Elements that thread `t` put in, in order. -/
def enteredBy (t : Tid) (l : List (Ev α)) : List α :=
  l.filterMap fun | .entered u x => if u = t then some x else none | _ => none

/-- Elements of a push that has not reached its critical section yet. -/
def inFlight : Pc α → List α
  | .pushing xs _ => xs
  | _ => []

@[simp] theorem entries_append (a b : List (Ev α)) : entries (a ++ b) = entries a ++ entries b := by
  simp [entries]
@[simp] theorem exits_append (a b : List (Ev α)) : exits (a ++ b) = exits a ++ exits b := by
  simp [exits]
@[simp] theorem acceptedBy_append (t : Tid) (a b : List (Ev α)) :
    acceptedBy t (a ++ b) = acceptedBy t a ++ acceptedBy t b := by simp [acceptedBy]
@[simp] theorem enteredBy_append (t : Tid) (a b : List (Ev α)) :
    enteredBy t (a ++ b) = enteredBy t a ++ enteredBy t b := by simp [enteredBy]
@[simp] theorem entries_pushed (t : Tid) (xs : List α) :
    entries (xs.map fun x => Ev.entered t x) = xs := by
  induction xs with
  | nil => rfl
  | cons x xs ih => simp [entries] at ih ⊢; exact ih
@[simp] theorem exits_pushed (t : Tid) (xs : List α) :
    exits (xs.map fun x => Ev.entered t x) = [] := by
  induction xs with
  | nil => rfl
  | cons x xs ih => simp [exits] at ih ⊢
@[simp] theorem entries_cleared (xs : List α) : entries (xs.map Ev.cleared) = [] := by
  induction xs with
  | nil => rfl
  | cons x xs ih => simp [entries] at ih ⊢
@[simp] theorem exits_cleared (xs : List α) : exits (xs.map Ev.cleared) = xs := by
  induction xs with
  | nil => rfl
  | cons x xs ih => simp [exits] at ih ⊢; exact ih
@[simp] theorem acceptedBy_pushed (t u : Tid) (xs : List α) :
    acceptedBy t (xs.map fun x => Ev.entered u x) = [] := by
  induction xs with
  | nil => rfl
  | cons x xs ih => simp [acceptedBy] at ih ⊢
@[simp] theorem acceptedBy_cleared (t : Tid) (xs : List α) : acceptedBy t (xs.map Ev.cleared) = [] := by
  induction xs with
  | nil => rfl
  | cons x xs ih => simp [acceptedBy] at ih ⊢
@[simp] theorem enteredBy_cleared (t : Tid) (xs : List α) : enteredBy t (xs.map Ev.cleared) = [] := by
  induction xs with
  | nil => rfl
  | cons x xs ih => simp [enteredBy] at ih ⊢
theorem enteredBy_pushed (t u : Tid) (xs : List α) :
    enteredBy t (xs.map fun x => Ev.entered u x) = if u = t then xs else [] := by
  induction xs with
  | nil => simp [enteredBy]
  | cons x xs ih =>
    by_cases h : u = t <;> simp [enteredBy, h] at ih ⊢
    exact ih

/-! ### C15 -/

theorem inFlight_woken (p : Pc α) : inFlight (wokenPc p) = inFlight p := by cases p <;> rfl

theorem accounted_step {k : Kind α} {s s' : State α} {a : Act α} (t : Tid)
    (h : acceptedBy t s.log = enteredBy t s.log ++ inFlight (s.pc t)) (hs : step k s a = some s') :
    acceptedBy t s'.log = enteredBy t s'.log ++ inFlight (s'.pc t) := by
  have hst := (step_cases hs).2
  have key : ∀ u p, inFlight p = inFlight (s.pc u) → inFlight (upd s.pc u p t) = inFlight (s.pc t) := by
    intro u p hp
    by_cases hut : t = u
    · subst hut; simpa using hp
    · rw [upd_other hut]
  cases hst with
  | refused u xs all hp hc => simpa [acceptedBy, enteredBy] using h
  | accepted u xs all hp hc hl =>
    by_cases hut : t = u
    · subst hut
      simp [hp, inFlight] at h
      simp [h, inFlight]
      simp [acceptedBy, enteredBy]
    · show _ = _ ++ inFlight (upd s.pc u (.pushing xs all) t)
      rw [upd_other hut]
      have hut' : u ≠ t := fun e => hut e.symm
      simp [acceptedBy, enteredBy, hut'] at h ⊢
      exact h
  | pushAll u xs ho hp =>
    rw [wakeAll_pc, inFlight_woken]
    simp only [wakeAll_log, acceptedBy_append, enteredBy_append, acceptedBy_pushed, enteredBy_pushed]
    by_cases hut : t = u
    · subst hut; simp [hp, inFlight] at h; simp [h, inFlight]
    · rw [upd_other hut, h, if_neg (fun e => hut e.symm)]; simp
  | pushNone u xs ho hp hw =>
    simp only [acceptedBy_append, enteredBy_append, acceptedBy_pushed, enteredBy_pushed]
    by_cases hut : t = u
    · subst hut; simp [hp, inFlight] at h; simp [h, inFlight]
    · rw [upd_other hut, h, if_neg (fun e => hut e.symm)]; simp
  | pushOne u xs w ho hp hw =>
    rw [wakeOne_pc]
    have : ∀ p : Pc α, inFlight (if t = w then wokenPc p else p) = inFlight p := by
      intro p; split
      · exact inFlight_woken p
      · rfl
    rw [this]
    simp only [wakeOne_log, acceptedBy_append, enteredBy_append, acceptedBy_pushed, enteredBy_pushed]
    by_cases hut : t = u
    · subst hut; simp [hp, inFlight] at h; simp [h, inFlight]
    · rw [upd_other hut, h, if_neg (fun e => hut e.symm)]; simp
  | callWait u timed ho hp => rw [show inFlight _ = _ from key u _ (by rw [hp]; rfl)]; exact h
  | isEmpty u timed last hp hq => rw [show inFlight _ = _ from key u _ (by rw [hp]; rfl)]; exact h
  | notEmpty u timed last hp hq => rw [show inFlight _ = _ from key u _ (by rw [hp]; rfl)]; exact h
  | predClosed u timed last hp hq => rw [show inFlight _ = _ from key u _ (by rw [hp]; rfl)]; exact h
  | predLast u timed hp hq =>
    rw [show inFlight _ = _ from key u _ (by rw [hp]; rfl)]
    simpa [acceptedBy, enteredBy] using h
  | predFalse u timed hp hq => rw [show inFlight _ = _ from key u _ (by rw [hp]; rfl)]; exact h
  | block u timed hp => rw [show inFlight _ = _ from key u _ (by rw [hp]; rfl)]; exact h
  | spurious u timed hp =>
    rw [wakeOne_pc]
    split
    · rw [inFlight_woken]; simpa using h
    · simpa using h
  | timeout u hp => rw [show inFlight _ = _ from key u _ (by rw [hp]; rfl)]; exact h
  | reWoken u timed ho hp => rw [show inFlight _ = _ from key u _ (by rw [hp]; rfl)]; exact h
  | reExpired u ho hp => rw [show inFlight _ = _ from key u _ (by rw [hp]; rfl)]; exact h
  | finishClosed u i hp hc =>
    rw [show inFlight _ = _ from key u _ (by rw [hp]; rfl)]
    simpa [acceptedBy, enteredBy] using h
  | finishUB u i hp hc hq => exact h
  | finishGot u i x hp hc hx hm =>
    rw [show inFlight _ = _ from key u _ (by rw [hp]; rfl)]
    simpa [acceptedBy, enteredBy] using h
  | tryGot u i x hp ho hc hx hm => simpa [acceptedBy, enteredBy] using h
  | tryFailed u i hp ho hc => simpa [acceptedBy, enteredBy] using h
  | closeAgain u hp hc => exact h
  | close u hp hc => rw [show inFlight _ = _ from key u _ (by rw [hp]; rfl)]; exact h
  | notifyAll u hp =>
    rw [wakeAll_pc, inFlight_woken, show inFlight _ = _ from key u _ (by rw [hp]; rfl)]
    exact h
  | reOpen u hp => exact h
  | clear u hp ho => simpa using h

/-- C15, producers: nothing a producer's accepted pushes contained is lost, duplicated or
reordered on the way in: what thread `t` has put in, followed by what its current push is
about to put in, is what its accepted pushes contained, in program order. -/
theorem push_accounted (k : Kind α) (acts : List (Act α)) (s : State α)
    (h : run k (init α) acts = some s) (t : Tid) :
    acceptedBy t s.log = enteredBy t s.log ++ inFlight (s.pc t) :=
  run_inv (fun _ => True) (fun s => acceptedBy t s.log = enteredBy t s.log ++ inFlight (s.pc t))
    (fun _ _ _ h _ hs => accounted_step t h hs) acts (init α) s rfl (fun _ _ => trivial) h

/-- How a step changes container and log, in one of five ways. -/
theorem step_flow {k : Kind α} {s s' : State α} {a : Act α} (hs : step k s a = some s') :
    (s'.q = s.q ∧ entries s'.log = entries s.log ∧ exits s'.log = exits s.log) ∨
    (∃ xs, s'.q = s.q ++ xs ∧ entries s'.log = entries s.log ++ xs ∧ exits s'.log = exits s.log) ∨
    (∃ i x, s.q[i]? = some x ∧ k.mayBeFront s.q i = true ∧ s'.q = s.q.eraseIdx i ∧
      entries s'.log = entries s.log ∧ exits s'.log = exits s.log ++ [x]) ∨
    (s'.q = [] ∧ entries s'.log = entries s.log ∧ exits s'.log = exits s.log ++ s.q) := by
  have hst := (step_cases hs).2
  cases hst with
  | refused t xs all hp hc => left; simp [entries, exits]
  | accepted t xs all hp hc hl => left; simp [entries, exits]
  | pushAll t xs ho hp => right; left; exact ⟨xs, by simp⟩
  | pushNone t xs ho hp hw => right; left; exact ⟨xs, by simp⟩
  | pushOne t xs w ho hp hw => right; left; exact ⟨xs, by simp⟩
  | predLast t timed hp hq => left; simp [entries, exits]
  | spurious t timed hp => left; simp
  | finishClosed t i hp hc => left; simp [entries, exits]
  | finishGot t i x hp hc hx hm =>
    right; right; left; exact ⟨i, x, hx, hm, rfl, by simp [entries], by simp [exits]⟩
  | tryGot t i x hp ho hc hx hm =>
    right; right; left; exact ⟨i, x, hx, hm, rfl, by simp [entries], by simp [exits]⟩
  | tryFailed t i hp ho hc => left; simp [entries, exits]
  | notifyAll t hp => left; simp
  | clear t hp ho => right; right; right; simp
  | callWait t timed ho hp => left; exact ⟨rfl, rfl, rfl⟩
  | isEmpty t timed last hp hq => left; exact ⟨rfl, rfl, rfl⟩
  | notEmpty t timed last hp hq => left; exact ⟨rfl, rfl, rfl⟩
  | predClosed t timed last hp hq => left; exact ⟨rfl, rfl, rfl⟩
  | predFalse t timed hp hq => left; exact ⟨rfl, rfl, rfl⟩
  | block t timed hp => left; exact ⟨rfl, rfl, rfl⟩
  | timeout t hp => left; exact ⟨rfl, rfl, rfl⟩
  | reWoken t timed ho hp => left; exact ⟨rfl, rfl, rfl⟩
  | reExpired t ho hp => left; exact ⟨rfl, rfl, rfl⟩
  | finishUB t i hp hc hq => left; exact ⟨rfl, rfl, rfl⟩
  | closeAgain t hp hc => left; exact ⟨rfl, rfl, rfl⟩
  | close t hp hc => left; exact ⟨rfl, rfl, rfl⟩
  | reOpen t hp => left; exact ⟨rfl, rfl, rfl⟩

/-- C15, FIFO. The elements that entered are, in order, those that left (each handed to
one consumer or discarded by `clear`, once) followed by those still queued. -/
theorem queue_fifo (acts : List (Act α)) (s : State α) (h : run (fifo α) (init α) acts = some s) :
    entries s.log = exits s.log ++ s.q := by
  refine run_inv (fun _ => True) (fun s => entries s.log = exits s.log ++ s.q) ?_ acts (init α) s rfl
    (fun _ _ => trivial) h
  intro s a s' h _ hs
  rcases step_flow hs with ⟨h1, h2, h3⟩ | ⟨xs, h1, h2, h3⟩ | ⟨i, x, hx, hm, h1, h2, h3⟩ | ⟨h1, h2, h3⟩
  · rw [h1, h2, h3, h]
  · rw [h1, h2, h3, h]; simp
  · have hi : i = 0 := by simpa [fifo] using hm
    subst hi
    rw [h1, h2, h3, h]
    cases hq : s.q with
    | nil => rw [hq] at hx; simp at hx
    | cons y ys => rw [hq] at hx; simp at hx; subst hx; simp
  · rw [h1, h2, h3, h]; simp

theorem perm_eraseIdx (q : List α) (i : Nat) (x : α) (h : q[i]? = some x) : (x :: q.eraseIdx i).Perm q := by
  induction q generalizing i with
  | nil => simp at h
  | cons y ys ih =>
    cases i with
    | zero => simp at h; subst h; simp
    | succ i =>
      simp at h
      simp only [List.eraseIdx_cons_succ]
      exact (List.Perm.swap _ _ _).trans ((ih i h).cons y)

/-- C15 for any container adaptor (priority queues too): nothing is lost or duplicated. -/
theorem queue_conserves (k : Kind α) (acts : List (Act α)) (s : State α)
    (h : run k (init α) acts = some s) : (entries s.log).Perm (exits s.log ++ s.q) := by
  refine run_inv (fun _ => True) (fun s => (entries s.log).Perm (exits s.log ++ s.q)) ?_ acts (init α) s
    .rfl (fun _ _ => trivial) h
  intro s a s' h _ hs
  rcases step_flow hs with ⟨h1, h2, h3⟩ | ⟨xs, h1, h2, h3⟩ | ⟨i, x, hx, hm, h1, h2, h3⟩ | ⟨h1, h2, h3⟩
  · rw [h1, h2, h3]; exact h
  · rw [h1, h2, h3, ← List.append_assoc]; exact h.append_right xs
  · rw [h1, h2, h3]
    refine h.trans ?_
    rw [List.append_assoc]
    exact (perm_eraseIdx s.q i x hx).symm.append_left _
  · rw [h1, h2, h3]; simpa using h

/-- C47 (queue half). A consumer of the priority queue never gets an element while a
greater one is queued. -/
theorem priority_served_first (lt : α → α → Bool) (s s' : State α) (a : Act α)
    (hs : step (prio lt) s a = some s') (t : Tid) (x : α) (hgot : s'.log = s.log ++ [.got t x]) :
    x ∈ s.q ∧ ∀ y ∈ s.q, lt x y = false := by
  have fin : ∀ i y, s.q[i]? = some y → (prio lt).mayBeFront s.q i = true → y = x →
      x ∈ s.q ∧ ∀ y ∈ s.q, lt x y = false := by
    intro i y hy hm e
    subst e
    refine ⟨List.mem_of_getElem? hy, fun z hz => ?_⟩
    simp only [prio, hy, List.all_eq_true] at hm
    simpa using hm z hz
  have nomap : ∀ (f : α → Ev α) (xs : List α), (∀ y, f y ≠ .got t x) → xs.map f ≠ [Ev.got t x] := by
    intro f xs hf hxs
    cases xs with
    | nil => cases hxs
    | cons y ys => simp at hxs; exact hf y hxs.1
  have hst := (step_cases hs).2
  cases hst with
  | finishGot u i y hp hc hy hm => simp at hgot; exact fin i y hy hm hgot.2
  | tryGot u i y hp ho hc hy hm => simp at hgot; exact fin i y hy hm hgot.2
  | clear u hp ho => exact absurd (by simpa using hgot) (nomap Ev.cleared s.q (by simp))
  | pushAll u xs ho hp =>
    exact absurd (by simpa using hgot) (nomap (fun x => Ev.entered u x) xs (by simp))
  | pushNone u xs ho hp hw =>
    exact absurd (by simpa using hgot) (nomap (fun x => Ev.entered u x) xs (by simp))
  | pushOne u xs w ho hp hw =>
    exact absurd (by simpa using hgot) (nomap (fun x => Ev.entered u x) xs (by simp))
  | _ => simp at hgot

/-! ### C16 -/

/-- After the predicate has seen the queue empty, it stays empty until the mutex is
released. -/
def Pc.sawEmpty : Pc α → Bool
  | .checkClosed _ _ | .willBlock _ => true
  | _ => false

def Emp (s : State α) : Prop := Excl s ∧ ∀ t, (s.pc t).sawEmpty = true → s.q = []

theorem emp_step {k : Kind α} {s s' : State α} {a : Act α} (h : Emp s) (hs : step k s a = some s') :
    Emp s' := by
  refine ⟨excl_step h.1 hs, ?_⟩
  obtain ⟨hex, h⟩ := h
  have hst := (step_cases hs).2
  have free : s.owner = none → ∀ t, (s.pc t).sawEmpty = false := by
    intro ho t
    cases hp : (s.pc t).sawEmpty with
    | false => rfl
    | true =>
      have : (s.pc t).holds = true := by
        cases hq : s.pc t <;> simp [hq, Pc.sawEmpty, Pc.holds] at hp ⊢
      rw [hex t this] at ho; cases ho
  have mine : ∀ u, (s.pc u).holds = true → ∀ t, t ≠ u → (s.pc t).sawEmpty = false := by
    intro u hu t htu
    cases hp : (s.pc t).sawEmpty with
    | false => rfl
    | true =>
      have ht : (s.pc t).holds = true := by
        cases hq : s.pc t <;> simp [hq, Pc.sawEmpty, Pc.holds] at hp ⊢
      have h1 := hex t ht
      rw [hex u hu] at h1
      cases h1; exact absurd rfl htu
  have woken : ∀ p : Pc α, (wokenPc p).sawEmpty = p.sawEmpty := by intro p; cases p <;> rfl
  have key : ∀ u p, (p.sawEmpty = true → s.q = []) →
      ∀ t, (upd s.pc u p t).sawEmpty = true → s.q = [] := by
    intro u p hp t ht
    by_cases htu : t = u
    · subst htu; simp at ht; exact hp ht
    · rw [upd_other htu] at ht; exact h t ht
  have key0 : ∀ u p, p.sawEmpty = false → (∀ t, t ≠ u → (s.pc t).sawEmpty = false) →
      ∀ t, (upd s.pc u p t).sawEmpty = false := by
    intro u p hp ho t
    by_cases htu : t = u
    · subst htu; simpa using hp
    · rw [upd_other htu]; exact ho t htu
  cases hst with
  | refused u xs all hp hc => exact h
  | accepted u xs all hp hc hl => exact key u _ (by simp [Pc.sawEmpty])
  | pushAll u xs ho hp =>
    intro t ht
    rw [wakeAll_pc, woken] at ht
    have := key0 u .idle rfl (fun t _ => free ho t) t
    rw [show (upd s.pc u .idle t).sawEmpty = false from this] at ht
    cases ht
  | pushNone u xs ho hp hw =>
    intro t ht
    have := key0 u .idle rfl (fun t _ => free ho t) t
    rw [show (upd s.pc u .idle t).sawEmpty = false from this] at ht
    cases ht
  | pushOne u xs w ho hp hw =>
    intro t ht
    rw [wakeOne_pc] at ht
    have := key0 u .idle rfl (fun t _ => free ho t) t
    split at ht
    · rw [woken, show (upd s.pc u .idle t).sawEmpty = false from this] at ht; cases ht
    · rw [show (upd s.pc u .idle t).sawEmpty = false from this] at ht; cases ht
  | callWait u timed ho hp => exact key u _ (by simp [Pc.sawEmpty])
  | isEmpty u timed last hp hq => exact key u _ (fun _ => hq)
  | notEmpty u timed last hp hq => exact key u _ (by simp [Pc.sawEmpty])
  | predClosed u timed last hp hq => exact key u _ (by simp [Pc.sawEmpty])
  | predLast u timed hp hq => exact key u _ (by simp [Pc.sawEmpty])
  | predFalse u timed hp hq => exact key u _ (fun _ => h u (by rw [hp]; rfl))
  | block u timed hp => exact key u _ (by simp [Pc.sawEmpty])
  | spurious u timed hp =>
    intro t ht
    rw [wakeOne_pc] at ht
    simp only [wakeOne_q]
    split at ht
    · rw [woken] at ht; exact h t ht
    · exact h t ht
  | timeout u hp => exact key u _ (by simp [Pc.sawEmpty])
  | reWoken u timed ho hp => exact key u _ (by simp [Pc.sawEmpty])
  | reExpired u ho hp => exact key u _ (by simp [Pc.sawEmpty])
  | finishClosed u i hp hc => exact key u _ (by simp [Pc.sawEmpty])
  | finishUB u i hp hc hq => exact h
  | finishGot u i x hp hc hx hm =>
    intro t ht
    have := key0 u .idle rfl (mine u (by rw [hp]; rfl)) t
    rw [show (upd s.pc u .idle t).sawEmpty = false from this] at ht
    cases ht
  | tryGot u i x hp ho hc hx hm =>
    intro t ht
    rw [show (s.pc t).sawEmpty = false from free ho t] at ht
    cases ht
  | tryFailed u i hp ho hc => exact h
  | closeAgain u hp hc => exact h
  | close u hp hc => exact key u _ (by simp [Pc.sawEmpty])
  | notifyAll u hp =>
    intro t ht
    rw [wakeAll_pc, woken] at ht
    exact key u .idle (by simp [Pc.sawEmpty]) t ht
  | reOpen u hp => exact h
  | clear u hp ho => intro t ht; rfl

theorem emp_init : Emp (init α) := ⟨excl_init, by intro t h; simp [init, Pc.sawEmpty] at h⟩

theorem emp_run (k : Kind α) (acts : List (Act α)) (s : State α) (h : run k (init α) acts = some s) :
    Emp s :=
  run_inv (fun _ => True) Emp (fun _ _ _ h _ hs => emp_step h hs) acts (init α) s emp_init
    (fun _ _ => trivial) h

/-- Specification: the latest wait thread `t` called: was it a timed one, and has it timed
out since? -/
def lastWait (t : Tid) (acts : List (Act α)) : Option (Bool × Bool) :=
  acts.foldl (fun o a => match a with
    | .callWait u timed => if u = t then some (timed, false) else o
    | .timeout u => if u = t then o.map fun p => (p.1, true) else o
    | _ => o) none

theorem lastWait_snoc (t : Tid) (acts : List (Act α)) (a : Act α) :
    lastWait t (acts ++ [a]) = match a with
    | .callWait u timed => if u = t then some (timed, false) else lastWait t acts
    | .timeout u => if u = t then (lastWait t acts).map fun p => (p.1, true) else lastWait t acts
    | _ => lastWait t acts := by
  simp [lastWait, List.foldl_append]

/-- Program counter of a wait against the calls made. -/
def WaitOk : Pc α → Option (Bool × Bool) → Prop
  | .checkEmpty timed last, o | .checkClosed timed last, o =>
    ∃ b, o = some (timed, b) ∧ (last = true → timed = true ∧ b = true)
  | .willBlock timed, o | .blocked timed, o | .woken timed, o => ∃ b, o = some (timed, b)
  | .expired, o => o = some (true, true)
  | _, _ => True

theorem waitOk_woken (p : Pc α) (o : Option (Bool × Bool)) (h : WaitOk p o) : WaitOk (wokenPc p) o := by
  cases p <;> exact h

theorem waitOk_step {k : Kind α} {pre : List (Act α)} {s s' : State α} {a : Act α} (t : Tid)
    (h : WaitOk (s.pc t) (lastWait t pre)) (hs : step k s a = some s') :
    WaitOk (s'.pc t) (lastWait t (pre ++ [a])) := by
  have hst := (step_cases hs).2
  have key : ∀ u p (o : Option (Bool × Bool)), (u = t → WaitOk p o) → (u ≠ t → o = lastWait t pre) →
      WaitOk (upd s.pc u p t) o := by
    intro u p o h1 h2
    by_cases hut : u = t
    · subst hut; simpa using h1 rfl
    · rw [upd_other (fun e => hut e.symm), h2 hut]; exact h
  rw [lastWait_snoc]
  cases hst with
  | refused u xs all hp hc => exact h
  | accepted u xs all hp hc hl => exact key u _ _ (fun _ => trivial) (fun _ => rfl)
  | pushAll u xs ho hp =>
    rw [wakeAll_pc]; exact waitOk_woken _ _ (key u _ _ (fun _ => trivial) (fun _ => rfl))
  | pushNone u xs ho hp hw => exact key u _ _ (fun _ => trivial) (fun _ => rfl)
  | pushOne u xs w ho hp hw =>
    rw [wakeOne_pc]
    split
    · exact waitOk_woken _ _ (key u _ _ (fun _ => trivial) (fun _ => rfl))
    · exact key u _ _ (fun _ => trivial) (fun _ => rfl)
  | callWait u timed ho hp =>
    refine key u _ _ (fun e => ?_) (fun e => by simp [e])
    subst e; exact ⟨false, by simp⟩
  | isEmpty u timed last hp hq =>
    exact key u _ _ (fun e => by subst e; rw [hp] at h; exact h) (fun _ => rfl)
  | notEmpty u timed last hp hq => exact key u _ _ (fun _ => trivial) (fun _ => rfl)
  | predClosed u timed last hp hq => exact key u _ _ (fun _ => trivial) (fun _ => rfl)
  | predLast u timed hp hq => exact key u _ _ (fun _ => trivial) (fun _ => rfl)
  | predFalse u timed hp hq =>
    refine key u _ _ (fun e => ?_) (fun _ => rfl)
    subst e; rw [hp] at h
    obtain ⟨b, hb, _⟩ := h
    exact ⟨b, hb⟩
  | block u timed hp => exact key u _ _ (fun e => by subst e; rw [hp] at h; exact h) (fun _ => rfl)
  | spurious u timed hp =>
    rw [wakeOne_pc]
    split
    · exact waitOk_woken _ _ h
    · exact h
  | timeout u hp =>
    refine key u _ _ (fun e => ?_) (fun e => by simp [e])
    subst e; rw [hp] at h
    obtain ⟨b, hb⟩ := h
    simp [hb, WaitOk]
  | reWoken u timed ho hp =>
    refine key u _ _ (fun e => ?_) (fun _ => rfl)
    subst e; rw [hp] at h
    obtain ⟨b, hb⟩ := h
    exact ⟨b, hb, by simp⟩
  | reExpired u ho hp =>
    refine key u _ _ (fun e => ?_) (fun _ => rfl)
    subst e; rw [hp] at h
    exact ⟨true, h, by simp⟩
  | finishClosed u i hp hc => exact key u _ _ (fun _ => trivial) (fun _ => rfl)
  | finishUB u i hp hc hq => exact h
  | finishGot u i x hp hc hx hm => exact key u _ _ (fun _ => trivial) (fun _ => rfl)
  | tryGot u i x hp ho hc hx hm => exact h
  | tryFailed u i hp ho hc => exact h
  | closeAgain u hp hc => exact h
  | close u hp hc => exact key u _ _ (fun _ => trivial) (fun _ => rfl)
  | notifyAll u hp =>
    rw [wakeAll_pc]; exact waitOk_woken _ _ (key u _ _ (fun _ => trivial) (fun _ => rfl))
  | reOpen u hp => exact h
  | clear u hp ho => exact h

/-- C16, false results. Whenever a wait or `tryPop` returns false, the queue is closed at
that moment; or it is empty, and the caller used `tryPop` or a timed wait that has timed
out since it was called. -/
theorem false_result_reason (k : Kind α) (acts : List (Act α)) (s : State α)
    (h : run k (init α) acts = some s) (a : Act α) (s' : State α) (hs : step k s a = some s')
    (t : Tid) (hg : s'.log = s.log ++ [.gaveUp t]) :
    s.closed = true ∨ (s.q = [] ∧ ((∃ i, a = .tryPop t i) ∨ lastWait t acts = some (true, true))) := by
  have hemp := emp_run k acts s h
  have hw : WaitOk (s.pc t) (lastWait t acts) := by
    have := run_inv_hist (k := k) (fun pre s => WaitOk (s.pc t) (lastWait t pre))
      (fun pre s a s' h hs => waitOk_step t h hs) acts [] (init α) s trivial h
    simpa using this
  have nomap : ∀ (f : α → Ev α) (xs : List α), (∀ y, f y ≠ .gaveUp t) → xs.map f ≠ [Ev.gaveUp t] := by
    intro f xs hf hxs
    cases xs with
    | nil => cases hxs
    | cons y ys => simp at hxs; exact hf y hxs.1
  have hst := (step_cases hs).2
  cases hst with
  | predLast u timed hp hq =>
    simp at hg
    subst hg
    rw [hp] at hw
    obtain ⟨b, hb, hl⟩ := hw
    obtain ⟨h1, h2⟩ := hl rfl
    subst h1 h2
    exact Or.inr ⟨hemp.2 u (by rw [hp]; rfl), Or.inr hb⟩
  | finishClosed u i hp hc => exact Or.inl hc
  | tryFailed u i hp ho hc =>
    simp at hg
    subst hg
    rcases hc with hc | hc
    · exact Or.inr ⟨hc, Or.inl ⟨i, rfl⟩⟩
    · exact Or.inl hc
  | clear u hp ho => exact absurd (by simpa using hg) (nomap Ev.cleared s.q (by simp))
  | pushAll u xs ho hp => exact absurd (by simpa using hg) (nomap (fun x => Ev.entered u x) xs (by simp))
  | pushNone u xs ho hp hw => exact absurd (by simpa using hg) (nomap (fun x => Ev.entered u x) xs (by simp))
  | pushOne u xs w ho hp hw => exact absurd (by simpa using hg) (nomap (fun x => Ev.entered u x) xs (by simp))
  | _ => simp at hg

/-- C16, true results: an element a consumer got had been pushed. -/
theorem got_was_pushed (k : Kind α) (acts : List (Act α)) (s : State α)
    (h : run k (init α) acts = some s) (t : Tid) (x : α) (hg : Ev.got t x ∈ s.log) :
    ∃ u, Ev.entered u x ∈ s.log := by
  have hx : x ∈ exits s.log := List.mem_filterMap.mpr ⟨_, hg, rfl⟩
  have he : x ∈ entries s.log := (queue_conserves k acts s h).mem_iff.mpr (List.mem_append_left _ hx)
  obtain ⟨e, hmem, hx⟩ := List.mem_filterMap.mp he
  cases e with
  | entered u y => simp at hx; subst hx; exact ⟨u, hmem⟩
  | _ => simp at hx

/-- A thread about to take an element finds one, or the queue closed. -/
def Avail (s : State α) : Prop := Excl s ∧ ∀ t, s.pc t = .recheck → s.q ≠ [] ∨ s.closed = true

theorem avail_step {k : Kind α} {s s' : State α} {a : Act α} (h : Avail s) (hok : ∀ t, a ≠ .reOpen t)
    (hs : step k s a = some s') : Avail s' := by
  refine ⟨excl_step h.1 hs, ?_⟩
  obtain ⟨hex, h⟩ := h
  have hst := (step_cases hs).2
  have free : s.owner = none → ∀ t, s.pc t ≠ .recheck := by
    intro ho t ht
    rw [hex t (by rw [ht]; rfl)] at ho; cases ho
  have mine : ∀ u, (s.pc u).holds = true → ∀ t, t ≠ u → s.pc t ≠ .recheck := by
    intro u hu t htu ht
    have h1 := hex t (by rw [ht]; rfl)
    rw [hex u hu] at h1; cases h1; exact htu rfl
  have woken : ∀ p : Pc α, wokenPc p = .recheck → p = .recheck := by
    intro p hp; cases p <;> simp [wokenPc] at hp ⊢
  have key : ∀ u p (P : Prop), (p = .recheck → P) → (∀ t, t ≠ u → s.pc t = .recheck → P) →
      ∀ t, upd s.pc u p t = .recheck → P := by
    intro u p P hp ho t ht
    by_cases htu : t = u
    · subst htu; simp at ht; exact hp ht
    · rw [upd_other htu] at ht; exact ho t htu ht
  cases hst with
  | refused u xs all hp hc => exact h
  | accepted u xs all hp hc hl => exact key u _ _ (by simp) (fun t _ => h t)
  | pushAll u xs ho hp =>
    intro t ht
    rw [wakeAll_pc] at ht
    exact key u .idle _ (by simp) (fun t _ ht => absurd ht (free ho t)) t (woken _ ht)
  | pushNone u xs ho hp hw => exact key u _ _ (by simp) (fun t _ ht => absurd ht (free ho t))
  | pushOne u xs w ho hp hw =>
    intro t ht
    rw [wakeOne_pc] at ht
    split at ht
    · exact key u .idle _ (by simp) (fun t _ ht => absurd ht (free ho t)) t (woken _ ht)
    · exact key u .idle _ (by simp) (fun t _ ht => absurd ht (free ho t)) t ht
  | callWait u timed ho hp => exact key u _ _ (by simp) (fun t _ => h t)
  | isEmpty u timed last hp hq => exact key u _ _ (by simp) (fun t _ => h t)
  | notEmpty u timed last hp hq => exact key u _ _ (fun _ => Or.inl hq) (fun t _ => h t)
  | predClosed u timed last hp hq => exact key u _ _ (fun _ => Or.inr hq) (fun t _ => h t)
  | predLast u timed hp hq => exact key u _ _ (by simp) (fun t _ => h t)
  | predFalse u timed hp hq => exact key u _ _ (by simp) (fun t _ => h t)
  | block u timed hp => exact key u _ _ (by simp) (fun t _ => h t)
  | spurious u timed hp =>
    intro t ht
    rw [wakeOne_pc] at ht
    simp only [wakeOne_q, wakeOne_closed]
    split at ht
    · exact h t (woken _ ht)
    · exact h t ht
  | timeout u hp => exact key u _ _ (by simp) (fun t _ => h t)
  | reWoken u timed ho hp => exact key u _ _ (by simp) (fun t _ => h t)
  | reExpired u ho hp => exact key u _ _ (by simp) (fun t _ => h t)
  | finishClosed u i hp hc => exact key u _ _ (by simp) (fun t _ => h t)
  | finishUB u i hp hc hq => exact h
  | finishGot u i x hp hc hx hm =>
    exact key u _ _ (by simp) (fun t htu ht => absurd ht (mine u (by rw [hp]; rfl) t htu))
  | tryGot u i x hp ho hc hx hm => intro t ht; exact absurd ht (free ho t)
  | tryFailed u i hp ho hc => exact h
  | closeAgain u hp hc => exact h
  | close u hp hc => exact fun t _ => Or.inr rfl
  | notifyAll u hp =>
    intro t ht
    rw [wakeAll_pc] at ht
    exact key u .idle _ (by simp) (fun t _ => h t) t (woken _ ht)
  | reOpen u hp => exact absurd rfl (hok u)
  | clear u hp ho => intro t ht; exact absurd ht (free ho t)

/-- C16 (part that holds): in any run without `reOpen`, no wait ever takes an element
from an empty container. Missing: runs with `reOpen`, see `reopen_pops_empty`. -/
theorem no_pop_from_empty_partial (k : Kind α) (acts : List (Act α)) (s : State α)
    (hok : ∀ a ∈ acts, ∀ t, a ≠ .reOpen t) (h : run k (init α) acts = some s) : s.ub = false := by
  have : Avail s ∧ s.ub = false := by
    refine run_inv (fun a => ∀ t, a ≠ .reOpen t) (fun s => Avail s ∧ s.ub = false) ?_ acts (init α) s
      ⟨⟨excl_init, by intro t h; simp [init] at h⟩, rfl⟩ hok h
    intro s a s' ⟨hav, hub⟩ ha hs
    refine ⟨avail_step hav ha hs, ?_⟩
    have hst := (step_cases hs).2
    cases hst with
    | finishUB u i hp hc hq =>
      rcases hav.2 u hp with h1 | h1
      · exact absurd hq h1
      · rw [hc] at h1; cases h1
    | pushOne u xs w ho hp hw => simpa using hub
    | spurious u timed hp => simpa using hub
    | _ => exact hub
  exact this.2

/-- C16 refuted in full: if the queue is closed and reopened while a consumer is between
its predicate and its second look at `isClosed()`, the consumer pops an empty container. -/
theorem reopen_pops_empty :
    ((run (fifo Nat) (init Nat) [.callWait 0 false, .evalEmpty 0, .callClose 1, .evalClosed 0,
      .notifyAll 1, .reOpen 1, .finish 0 0]).map (·.ub)) = some true := by
  decide

/-! ### C17 -/

/-- C17 refuted: `close` sets the flag and notifies without taking the mutex, so a consumer
that has found the queue empty and open, and has not yet gone to sleep, misses the
notification; unless it wakes up spuriously (or the queue is reopened and used again) it
sleeps for ever, whatever the other threads do, including closing again. -/
theorem close_loses_wakeup : ∃ acts s, run (fifo Nat) (init Nat) acts = some s ∧ s.closed = true ∧
    s.pc 0 = .blocked false ∧
    ∀ more s', (∀ a ∈ more, a ≠ .spurious 0 ∧ ∀ t, a ≠ .reOpen t) →
      run (fifo Nat) s more = some s' → s'.pc 0 = .blocked false := by
  let acts : List (Act Nat) := [.callWait 0 false, .evalEmpty 0, .evalClosed 0, .callClose 1,
      .notifyAll 1, .block 0]
  obtain ⟨s, hs⟩ : ∃ s, run (fifo Nat) (init Nat) acts = some s := ⟨_, rfl⟩
  have hs' := hs
  cases hs'
  refine ⟨acts, _, hs, rfl, rfl, ?_⟩
  intro more s' hmore hrun
  have := run_inv (k := fifo Nat) (fun a => a ≠ .spurious 0 ∧ ∀ t, a ≠ .reOpen t)
    (fun s => s.closed = true ∧ s.pc 0 = .blocked false ∧
      (∀ t xs all, s.pc t ≠ .pushing xs all) ∧ (∀ t, s.pc t ≠ .closing)) ?_ more _ s' ?_ hmore hrun
  · exact this.2.1
  · intro s a s' ⟨h1, h2, h3, h4⟩ hok hstep
    have hst := (step_cases hstep).2
    have ne : ∀ u p, s.pc u = p → p ≠ .blocked false → (0 : Tid) ≠ u := by
      intro u p hp hne e; subst e; rw [hp] at h2; exact hne h2
    have key : ∀ u p, (0 : Tid) ≠ u → (∀ xs all, p ≠ .pushing xs all) → p ≠ .closing →
        upd s.pc u p 0 = .blocked false ∧ (∀ t xs all, upd s.pc u p t ≠ .pushing xs all) ∧
        (∀ t, upd s.pc u p t ≠ .closing) := by
      intro u p hu hp1 hp2
      refine ⟨by rw [upd_other hu]; exact h2, fun t xs all => ?_, fun t => ?_⟩
      · by_cases htu : t = u
        · subst htu; simpa using hp1 xs all
        · rw [upd_other htu]; exact h3 t xs all
      · by_cases htu : t = u
        · subst htu; simpa using hp2
        · rw [upd_other htu]; exact h4 t
    cases hst with
    | refused u xs all hp hc => exact ⟨h1, h2, h3, h4⟩
    | accepted u xs all hp hc hl => rw [h1] at hc; cases hc
    | pushAll u xs ho hp => exact absurd hp (h3 u _ _)
    | pushNone u xs ho hp hw => exact absurd hp (h3 u _ _)
    | pushOne u xs w ho hp hw => exact absurd hp (h3 u _ _)
    | callWait u timed ho hp => exact ⟨h1, key u _ (ne u _ hp (by simp)) (by simp) (by simp)⟩
    | isEmpty u timed last hp hq => exact ⟨h1, key u _ (ne u _ hp (by simp)) (by simp) (by simp)⟩
    | notEmpty u timed last hp hq => exact ⟨h1, key u _ (ne u _ hp (by simp)) (by simp) (by simp)⟩
    | predClosed u timed last hp hq => exact ⟨h1, key u _ (ne u _ hp (by simp)) (by simp) (by simp)⟩
    | predLast u timed hp hq => exact ⟨h1, key u _ (ne u _ hp (by simp)) (by simp) (by simp)⟩
    | predFalse u timed hp hq => exact ⟨h1, key u _ (ne u _ hp (by simp)) (by simp) (by simp)⟩
    | block u timed hp => exact ⟨h1, key u _ (ne u _ hp (by simp)) (by simp) (by simp)⟩
    | spurious u timed hp =>
      have hu : (0 : Tid) ≠ u := fun e => hok.1 (by rw [e])
      have e : wakeOne s u = { s with waiters := s.waiters.erase u, pc := upd s.pc u (.woken timed) } := by
        simp [wakeOne, hp]
      rw [e]
      exact ⟨h1, key u _ hu (by simp) (by simp)⟩
    | timeout u hp => exact ⟨h1, key u _ (ne u _ hp (by simp)) (by simp) (by simp)⟩
    | reWoken u timed ho hp => exact ⟨h1, key u _ (ne u _ hp (by simp)) (by simp) (by simp)⟩
    | reExpired u ho hp => exact ⟨h1, key u _ (ne u _ hp (by simp)) (by simp) (by simp)⟩
    | finishClosed u i hp hc => exact ⟨h1, key u _ (ne u _ hp (by simp)) (by simp) (by simp)⟩
    | finishUB u i hp hc hq => exact ⟨h1, h2, h3, h4⟩
    | finishGot u i x hp hc hx hm => exact ⟨h1, key u _ (ne u _ hp (by simp)) (by simp) (by simp)⟩
    | tryGot u i x hp ho hc hx hm => exact ⟨h1, h2, h3, h4⟩
    | tryFailed u i hp ho hc => exact ⟨h1, h2, h3, h4⟩
    | closeAgain u hp hc => exact ⟨h1, h2, h3, h4⟩
    | close u hp hc => rw [h1] at hc; cases hc
    | notifyAll u hp => exact absurd hp (h4 u)
    | reOpen u hp => exact absurd rfl (hok.2 u)
    | clear u hp ho => exact ⟨h1, h2, h3, h4⟩
  · refine ⟨rfl, rfl, ?_, ?_⟩
    · intro t xs all
      by_cases h0 : t = 0 <;> by_cases h1 : t = 1 <;> simp [wakeAll, upd, h0, h1, init]
    · intro t
      by_cases h0 : t = 0 <;> by_cases h1 : t = 1 <;> simp [wakeAll, upd, h0, h1, init]

/-- The window of the lost wake-up is not hit: no `notify_all` of a `close` comes while a
thread has evaluated the predicate to false and not yet gone to sleep. -/
def NoWindow (k : Kind α) : State α → List (Act α) → Prop
  | _, [] => True
  | s, a :: as =>
    ((∃ t, a = .notifyAll t) → ∀ u timed, s.pc u ≠ .willBlock timed) ∧
    ∀ s', step k s a = some s' → NoWindow k s' as

/-- Nobody sleeps in a closed queue, unless the notification is still to come. -/
def Released (s : State α) : Prop :=
  s.closed = true → (∃ u, s.pc u = .closing) ∨
    ∀ t timed, s.pc t ≠ .blocked timed ∧ s.pc t ≠ .willBlock timed

theorem released_step {k : Kind α} {s s' : State α} {a : Act α} (h : Released s)
    (hok : ∀ t, a ≠ .reOpen t)
    (hw : (∃ t, a = .notifyAll t) → ∀ u timed, s.pc u ≠ .willBlock timed)
    (hs : step k s a = some s') : Released s' := by
  have hst := (step_cases hs).2
  -- changing the counter of a thread that is not closing
  have key : ∀ u p, s.pc u ≠ .closing → (∀ timed, p ≠ .blocked timed ∧ p ≠ .willBlock timed) →
      s.closed = true → (∃ v, upd s.pc u p v = .closing) ∨
        ∀ t timed, upd s.pc u p t ≠ .blocked timed ∧ upd s.pc u p t ≠ .willBlock timed := by
    intro u p hu hp hc
    rcases h hc with ⟨v, hv⟩ | hn
    · refine Or.inl ⟨v, ?_⟩
      have : v ≠ u := fun e => hu (e ▸ hv)
      rw [upd_other this]; exact hv
    · refine Or.inr fun t timed => ?_
      by_cases htu : t = u
      · subst htu; simpa using hp timed
      · rw [upd_other htu]; exact hn t timed
  have wok : ∀ (f : Tid → Pc α) (g : Tid → Pc α), (∀ v, g v = f v ∨ g v = wokenPc (f v)) →
      ((∃ v, f v = .closing) ∨ ∀ t timed, f t ≠ .blocked timed ∧ f t ≠ .willBlock timed) →
      ((∃ v, g v = .closing) ∨ ∀ t timed, g t ≠ .blocked timed ∧ g t ≠ .willBlock timed) := by
    intro f g hfg hf
    rcases hf with ⟨v, hv⟩ | hn
    · refine Or.inl ⟨v, ?_⟩
      rcases hfg v with e | e <;> rw [e, hv]; rfl
    · refine Or.inr fun t timed => ?_
      rcases hfg t with e | e
      · rw [e]; exact hn t timed
      · rw [e]
        cases hp : f t <;> simp [wokenPc]
        exact absurd hp (hn t _).2
  have nc : ∀ u p, s.pc u = p → p ≠ .closing → s.pc u ≠ .closing := by
    intro u p hp hne e; rw [hp] at e; exact hne e
  cases hst with
  | refused u xs all hp hc => exact h
  | accepted u xs all hp hc hl => exact key u _ (nc u _ hp (by simp)) (by simp)
  | pushAll u xs ho hp =>
    intro hc
    refine wok (upd s.pc u .idle) _ (fun v => Or.inr (wakeAll_pc _ v)) ?_
    exact key u _ (nc u _ hp (by simp)) (by simp) hc
  | pushNone u xs ho hp hw' => exact key u _ (nc u _ hp (by simp)) (by simp)
  | pushOne u xs w ho hp hw' =>
    intro hc
    simp only [wakeOne_closed] at hc
    refine wok (upd s.pc u .idle) _ (fun v => ?_) (key u _ (nc u _ hp (by simp)) (by simp) hc)
    rw [wakeOne_pc]
    split
    · exact Or.inr rfl
    · exact Or.inl rfl
  | callWait u timed ho hp => exact key u _ (nc u _ hp (by simp)) (by simp)
  | isEmpty u timed last hp hq => exact key u _ (nc u _ hp (by simp)) (by simp)
  | notEmpty u timed last hp hq => exact key u _ (nc u _ hp (by simp)) (by simp)
  | predClosed u timed last hp hq => exact key u _ (nc u _ hp (by simp)) (by simp)
  | predLast u timed hp hq => exact key u _ (nc u _ hp (by simp)) (by simp)
  | predFalse u timed hp hq =>
    intro hc
    rw [show s.closed = true from hc] at hq; cases hq
  | block u timed hp =>
    intro hc
    rcases h hc with ⟨v, hv⟩ | hn
    · refine Or.inl ⟨v, ?_⟩
      have : v ≠ u := fun e => nc u _ hp (by simp) (e ▸ hv)
      show upd s.pc u _ v = _
      rw [upd_other this]; exact hv
    · exact absurd hp (hn u timed).2
  | spurious u timed hp =>
    intro hc
    simp only [wakeOne_closed] at hc
    refine wok s.pc _ (fun v => ?_) (h hc)
    rw [wakeOne_pc]
    split
    · exact Or.inr rfl
    · exact Or.inl rfl
  | timeout u hp => exact key u _ (nc u _ hp (by simp)) (by simp)
  | reWoken u timed ho hp => exact key u _ (nc u _ hp (by simp)) (by simp)
  | reExpired u ho hp => exact key u _ (nc u _ hp (by simp)) (by simp)
  | finishClosed u i hp hc => exact key u _ (nc u _ hp (by simp)) (by simp)
  | finishUB u i hp hc hq => exact h
  | finishGot u i x hp hc hx hm => exact key u _ (nc u _ hp (by simp)) (by simp)
  | tryGot u i x hp ho hc hx hm => exact h
  | tryFailed u i hp ho hc => exact h
  | closeAgain u hp hc => exact h
  | close u hp hc => exact fun _ => Or.inl ⟨u, by simp⟩
  | notifyAll u hp =>
    intro hc
    refine Or.inr fun t timed => ?_
    rw [wakeAll_pc]
    show wokenPc (upd s.pc u .idle t) ≠ _ ∧ wokenPc (upd s.pc u .idle t) ≠ _
    by_cases htu : t = u
    · subst htu; simp [wokenPc]
    · rw [upd_other htu]
      have := hw ⟨u, rfl⟩ t
      cases hp : s.pc t <;> simp [wokenPc]
      exact absurd hp (this _)
  | reOpen u hp => exact absurd rfl (hok u)
  | clear u hp ho => exact h

/-- C17 (part that holds). In any run without `reOpen` that does not hit the window of
`close_loses_wakeup`: once the queue is closed and `close` has notified, no consumer is
asleep, and none ever goes to sleep again. -/
theorem close_releases_partial (k : Kind α) (acts : List (Act α)) (s : State α)
    (hok : ∀ a ∈ acts, ∀ t, a ≠ .reOpen t) (hnw : NoWindow k (init α) acts)
    (h : run k (init α) acts = some s) (hc : s.closed = true) (hdone : ∀ u, s.pc u ≠ .closing)
    (t : Tid) (timed : Bool) : s.pc t ≠ .blocked timed ∧ s.pc t ≠ .willBlock timed := by
  have key : ∀ acts (s0 : State α), Released s0 → (∀ a ∈ acts, ∀ t, a ≠ .reOpen t) →
      NoWindow k s0 acts → run k s0 acts = some s → Released s := by
    intro acts
    induction acts with
    | nil => intro s0 h0 _ _ h; cases h; exact h0
    | cons a as ih =>
      intro s0 h0 hok hnw h
      simp only [run] at h
      cases hs : step k s0 a with
      | none => simp [hs] at h
      | some s1 =>
        simp only [hs, Option.bind_some] at h
        exact ih s1 (released_step h0 (hok a (by simp)) hnw.1 hs) (fun a ha => hok a (by simp [ha]))
          (hnw.2 s1 hs) h
  have hr := key acts (init α) (by intro h; simp [init] at h) hok hnw h
  rcases hr hc with ⟨u, hu⟩ | hn
  · exact absurd hu (hdone u)
  · exact hn t timed

/-- Where a call to a wait stands: 0 returned, otherwise how far it is from returning if
the queue is closed. -/
def Pc.toGo : Pc α → Nat
  | .woken _ | .expired => 4
  | .checkEmpty _ _ => 3
  | .checkClosed _ _ => 2
  | .recheck => 1
  | _ => 0

/-- The wait of `t` has returned false; the mutex is free, and nobody else moved. -/
structure GaveUp (s s' : State α) (t : Tid) : Prop where
  idle : s'.pc t = .idle
  log : s'.log = s.log ++ [.gaveUp t]
  owner : s'.owner = none
  closed : s'.closed = true
  ub : s'.ub = false
  others : ∀ v, v ≠ t → s'.pc v = s.pc v

/-- A step inside a wait: nobody pushes, nobody is notified. -/
def WaitStep (a : Act α) : Prop :=
  ∃ u, a = .evalEmpty u ∨ a = .evalClosed u ∨ a = .block u ∨ a = .reacquire u ∨ a = .finish u 0

/-- In a closed queue a wait that is not asleep, whose mutex is free or its own, returns false within four of its own
steps. -/
theorem closed_wait_steps (k : Kind α) (s : State α) (t : Tid) (hub : s.ub = false)
    (hc : s.closed = true) (ho : s.owner = none ∨ s.owner = some t) (hfree : s.owner = some t → (s.pc t).holds = true)
    (hpos : 0 < (s.pc t).toGo) :
    ∃ acts s', acts.length ≤ 4 ∧ (∀ a ∈ acts, WaitStep a) ∧ run k s acts = some s' ∧ GaveUp s s' t := by
  have f1 : ∀ s : State α, s.ub = false → s.closed = true → s.pc t = .recheck →
      ∃ s', run k s [.finish t 0] = some s' ∧ GaveUp s s' t := by
    intro s hub hc hp
    exact ⟨{ s with owner := none, pc := upd s.pc t .idle, log := s.log ++ [.gaveUp t] },
      by simp [run, step, body, hub, hp, hc], by simp, rfl, rfl, hc, hub, fun v hv => by simp [upd_other hv]⟩
  have carry : ∀ (s s' : State α) (p : Pc α) (o : Option Tid),
      GaveUp { s with owner := o, pc := upd s.pc t p } s' t → GaveUp s s' t := by
    intro s s' p o h
    exact ⟨h.idle, h.log, h.owner, h.closed, h.ub, fun v hv => by rw [h.others v hv]; simp [upd_other hv]⟩
  have f2 : ∀ (s : State α) timed last, s.ub = false → s.closed = true →
      s.pc t = .checkClosed timed last →
      ∃ s', run k s [.evalClosed t, .finish t 0] = some s' ∧ GaveUp s s' t := by
    intro s timed last hub hc hp
    obtain ⟨s', h1, h2⟩ := f1 { s with pc := upd s.pc t .recheck } hub hc (by simp)
    refine ⟨s', ?_, carry s s' .recheck s.owner h2⟩
    have e : step k s (.evalClosed t) = some { s with pc := upd s.pc t .recheck } := by
      simp [step, body, hub, hp, hc]
    rw [run, e]; exact h1
  have f3 : ∀ (s : State α) timed last, s.ub = false → s.closed = true →
      s.pc t = .checkEmpty timed last →
      ∃ acts s', acts.length ≤ 3 ∧ (∀ a ∈ acts, WaitStep a) ∧ run k s acts = some s' ∧ GaveUp s s' t := by
    intro s timed last hub hc hp
    by_cases hq : s.q = []
    · obtain ⟨s', h1, h2⟩ := f2 { s with pc := upd s.pc t (.checkClosed timed last) } timed last hub hc
        (by simp)
      refine ⟨[.evalEmpty t, .evalClosed t, .finish t 0], s', by simp, ?_, ?_, carry s s' _ s.owner h2⟩
      · intro a ha
        simp only [List.mem_cons, List.not_mem_nil, or_false] at ha
        rcases ha with rfl | rfl | rfl
        · exact ⟨t, .inl rfl⟩
        · exact ⟨t, .inr (.inl rfl)⟩
        · exact ⟨t, .inr (.inr (.inr (.inr rfl)))⟩
      have e : step k s (.evalEmpty t) = some { s with pc := upd s.pc t (.checkClosed timed last) } := by
        simp [step, body, hub, hp, hq]
      rw [run, e]; exact h1
    · obtain ⟨s', h1, h2⟩ := f1 { s with pc := upd s.pc t .recheck } hub hc (by simp)
      refine ⟨[.evalEmpty t, .finish t 0], s', by simp, ?_, ?_, carry s s' _ s.owner h2⟩
      · intro a ha
        simp only [List.mem_cons, List.not_mem_nil, or_false] at ha
        rcases ha with rfl | rfl
        · exact ⟨t, .inl rfl⟩
        · exact ⟨t, .inr (.inr (.inr (.inr rfl)))⟩
      have e : step k s (.evalEmpty t) = some { s with pc := upd s.pc t .recheck } := by
        simp [step, body, hub, hp, hq]
      rw [run, e]; exact h1
  have cons : ∀ (acts : List (Act α)), (∀ a ∈ acts, WaitStep a) → ∀ a ∈ Act.reacquire t :: acts, WaitStep a := by
    intro acts h a ha
    simp only [List.mem_cons] at ha
    rcases ha with rfl | ha
    · exact ⟨t, .inr (.inr (.inr (.inl rfl)))⟩
    · exact h a ha
  cases hp : s.pc t with
  | recheck =>
    obtain ⟨s', h1, h2⟩ := f1 s hub hc hp
    refine ⟨[.finish t 0], s', by simp, ?_, h1, h2⟩
    intro a ha
    simp only [List.mem_cons, List.not_mem_nil, or_false] at ha
    exact ⟨t, .inr (.inr (.inr (.inr ha)))⟩
  | checkClosed timed last =>
    obtain ⟨s', h1, h2⟩ := f2 s timed last hub hc hp
    refine ⟨[.evalClosed t, .finish t 0], s', by simp, ?_, h1, h2⟩
    intro a ha
    simp only [List.mem_cons, List.not_mem_nil, or_false] at ha
    rcases ha with rfl | rfl
    · exact ⟨t, .inr (.inl rfl)⟩
    · exact ⟨t, .inr (.inr (.inr (.inr rfl)))⟩
  | checkEmpty timed last =>
    obtain ⟨acts, s', h1, h⟩ := f3 s timed last hub hc hp
    exact ⟨acts, s', by omega, h⟩
  | woken timed =>
    have ho' : s.owner = none := by
      rcases ho with h | h
      · exact h
      · have := hfree h; rw [hp] at this; simp [Pc.holds] at this
    obtain ⟨acts, s', h1, hw, h2, h3⟩ := f3
      { s with owner := some t, pc := upd s.pc t (.checkEmpty timed false) } timed false hub hc (by simp)
    refine ⟨.reacquire t :: acts, s', by simp; omega, cons acts hw, ?_, carry s s' _ _ h3⟩
    have e : step k s (.reacquire t) =
        some { s with owner := some t, pc := upd s.pc t (.checkEmpty timed false) } := by
      simp [step, body, hub, hp, ho']
    rw [run, e]; exact h2
  | expired =>
    have ho' : s.owner = none := by
      rcases ho with h | h
      · exact h
      · have := hfree h; rw [hp] at this; simp [Pc.holds] at this
    obtain ⟨acts, s', h1, hw, h2, h3⟩ := f3
      { s with owner := some t, pc := upd s.pc t (.checkEmpty true true) } true true hub hc (by simp)
    refine ⟨.reacquire t :: acts, s', by simp; omega, cons acts hw, ?_, carry s s' _ _ h3⟩
    have e : step k s (.reacquire t) =
        some { s with owner := some t, pc := upd s.pc t (.checkEmpty true true) } := by
      simp [step, body, hub, hp, ho']
    rw [run, e]; exact h2
  | _ => rw [hp] at hpos; simp [Pc.toGo] at hpos

theorem run_append {k : Kind α} : ∀ (xs ys : List (Act α)) (s s' s'' : State α), run k s xs = some s' →
    run k s' ys = some s'' → run k s (xs ++ ys) = some s''
  | [], ys, s, s', s'', h, h' => by simp only [run, Option.some.injEq] at h; subst h; exact h'
  | x :: xs, ys, s, s', s'', h, h' => by
    simp only [List.cons_append, run] at h ⊢
    cases hs : step k s x with
    | none => simp [hs] at h
    | some s1 =>
      simp only [hs, Option.bind_some] at h ⊢
      exact run_append xs ys s1 s' s'' h h'

/-- C17 (part that holds), progress. In whatever state a closed queue is reached: a wait that is not asleep returns false
after at most eight steps inside waits (at most one other wait holds the mutex and leaves first); nothing needs to be
pushed, nobody needs to be notified. -/
theorem closed_wait_returns (k : Kind α) (acts : List (Act α)) (s : State α) (h : run k (init α) acts = some s)
    (hub : s.ub = false) (hc : s.closed = true) (t : Tid) (hpos : 0 < (s.pc t).toGo) :
    ∃ more s' l, more.length ≤ 8 ∧ (∀ a ∈ more, WaitStep a) ∧ run k s more = some s' ∧ s'.pc t = .idle ∧
      s'.log = s.log ++ l ++ [.gaveUp t] := by
  obtain ⟨_, hown⟩ := excl_owned_run acts (init α) s excl_init owned_init h
  by_cases ho : s.owner = none ∨ s.owner = some t
  · obtain ⟨more, s', h1, h2, h3, h4⟩ := closed_wait_steps k s t hub hc ho (hown t) hpos
    exact ⟨more, s', [], by omega, h2, h3, h4.idle, by simpa using h4.log⟩
  · cases hu : s.owner with
    | none => exact absurd (.inl hu) ho
    | some u =>
      have hne : t ≠ u := fun e => ho (.inr (by rw [hu, e]))
      have hh := hown u hu
      by_cases hgo : 0 < (s.pc u).toGo
      · obtain ⟨m1, s1, a1, a2, a3, a4⟩ := closed_wait_steps k s u hub hc (.inr hu) (hown u) hgo
        obtain ⟨m2, s2, b1, b2, b3, b4⟩ := closed_wait_steps k s1 t a4.ub a4.closed (.inl a4.owner)
          (by rw [a4.owner]; intro e; cases e) (by rw [a4.others t hne]; exact hpos)
        refine ⟨m1 ++ m2, s2, [.gaveUp u], by simp; omega, ?_, run_append m1 m2 s s1 s2 a3 b3, b4.idle, ?_⟩
        · intro a ha
          rcases List.mem_append.mp ha with ha | ha
          · exact a2 a ha
          · exact b2 a ha
        · rw [b4.log, a4.log]
      · cases hp : s.pc u with
        | willBlock timed =>
          have e : ∃ s1, step k s (.block u) = some s1 ∧ s1.owner = none ∧ s1.closed = true ∧ s1.ub = false ∧
              s1.log = s.log ∧ s1.pc t = s.pc t := by
            exact ⟨{ s with owner := none, waiters := u :: s.waiters, pc := upd s.pc u (.blocked timed) },
              by simp [step, body, hub, hp], rfl, hc, hub, rfl, by simp [upd_other hne]⟩
          obtain ⟨s1, e1, e2, e3, e4, e5, e6⟩ := e
          obtain ⟨m2, s2, b1, b2, b3, b4⟩ := closed_wait_steps k s1 t e4 e3 (.inl e2)
            (by rw [e2]; intro e; cases e) (by rw [e6]; exact hpos)
          refine ⟨.block u :: m2, s2, [], by simp; omega, ?_, by rw [run, e1]; exact b3, b4.idle, ?_⟩
          · intro a ha
            simp only [List.mem_cons] at ha
            rcases ha with rfl | ha
            · exact ⟨u, .inr (.inr (.inl rfl))⟩
            · exact b2 a ha
          · rw [b4.log, e5]; simp
        | checkEmpty a b => rw [hp] at hgo; simp [Pc.toGo] at hgo
        | checkClosed a b => rw [hp] at hgo; simp [Pc.toGo] at hgo
        | recheck => rw [hp] at hgo; simp [Pc.toGo] at hgo
        | _ => rw [hp] at hh; simp [Pc.holds] at hh

/-- Two waits that have been woken by `close`, one of which holds the mutex. -/
example : ((run (fifo Nat) (init Nat) [.callWait 0 false, .evalEmpty 0, .evalClosed 0, .block 0, .callWait 1 false, .evalEmpty 1,
    .evalClosed 1, .block 1, .callClose 2, .notifyAll 2, .reacquire 1]).map fun s =>
      (s.ub, s.closed, (s.pc 0).toGo, (s.pc 1).toGo, s.owner)) = some (false, true, 4, 3, some 1) := rfl

/-! ### C54: nobody sleeps while there is work -/

/-- The thread that acts. -/
def Act.tid : Act α → Tid
  | .callPush t _ _ | .doPush t _ | .callWait t _ | .evalEmpty t | .evalClosed t | .block t
  | .spurious t | .timeout t | .reacquire t | .finish t _ | .tryPop t _ | .callClose t
  | .notifyAll t | .reOpen t | .clear t => t

/-- A consumer that is awake inside a wait and will look at the queue, or is about to take
an element. -/
def Pc.awake : Pc α → Bool
  | .woken _ | .expired | .checkEmpty _ _ | .recheck => true
  | _ => false

/-- Number of awake consumers among the threads `0 … n-1`. -/
def awakeCount (n : Nat) (f : Tid → Pc α) : Nat := (List.range n).countP fun t => (f t).awake

theorem countP_upd (n : Nat) (f : Tid → Pc α) (t : Nat) (p : Pc α) (ht : t < n) :
    awakeCount n (upd f t p) + (if (f t).awake then 1 else 0) = awakeCount n f + (if p.awake then 1 else 0) := by
  simp only [awakeCount]
  induction n with
  | zero => omega
  | succ n ih =>
    simp only [List.range_succ, List.countP_append, List.countP_cons, List.countP_nil]
    by_cases htn : t = n
    · subst htn
      have hsame : (List.range t).countP (fun u => (upd f t p u).awake) =
          (List.range t).countP (fun u => (f u).awake) := by
        apply List.countP_congr
        intro u hu
        have : u ≠ t := Nat.ne_of_lt (List.mem_range.mp hu)
        rw [upd_other this]
      rw [hsame]
      simp only [upd_same]
      omega
    · have := ih (by omega)
      rw [show upd f t p n = f n from upd_other (fun e => htn e.symm)]
      omega

theorem awakeCount_woken_le (n : Nat) (f g : Tid → Pc α) (h : ∀ v, g v = f v ∨ g v = wokenPc (f v)) :
    awakeCount n f ≤ awakeCount n g := by
  simp only [awakeCount]
  apply List.countP_mono_left
  intro t _ ht
  rcases h t with e | e <;> rw [e]
  · exact ht
  · cases hp : f t <;> simp [hp, Pc.awake, wokenPc] at ht ⊢

structure Busy (n : Nat) (s : State α) : Prop where
  emp : Emp s
  opened : s.closed = false
  have_ : ∀ t, s.pc t = .recheck → s.q ≠ []
  sleeping : ∀ t, t ∈ s.waiters ↔ ∃ timed, s.pc t = .blocked timed
  nodup : s.waiters.Nodup
  single : ∀ t xs, s.pc t = .pushing xs false → xs.length = 1
  small : ∀ t, s.pc t ≠ .idle → t < n
  enough : s.waiters = [] ∨ s.q.length ≤ awakeCount n s.pc

theorem busy_step {n : Nat} {k : Kind α} {s s' : State α} {a : Act α} (h : Busy n s)
    (hn : a.tid < n) (hok : ∀ t, a ≠ .callClose t) (hs : step k s a = some s') : Busy n s' := by
  have hst := (step_cases hs).2
  have hemp' := emp_step h.emp hs
  have hav : Avail s := ⟨h.emp.1, fun t ht => Or.inl (h.have_ t ht)⟩
  obtain ⟨hemp, hop, hhave, hsl, hnd, hsi, hsm, hen⟩ := h
  have hclosed' : s'.closed = false := by
    cases hst with
    | close u hp hc => exact absurd rfl (hok u)
    | closeAgain u hp hc => rw [hop] at hc; cases hc
    | pushOne u xs w ho hp hw => simpa using hop
    | spurious u timed hp => simpa using hop
    | reOpen u hp => rfl
    | _ => exact hop
  have hhave' : ∀ t, s'.pc t = .recheck → s'.q ≠ [] := by
    by_cases hre : ∃ t, a = .reOpen t
    · obtain ⟨u, rfl⟩ := hre
      cases hst with
      | reOpen u hp => exact hhave
    · have := avail_step hav (fun t e => hre ⟨t, e⟩) hs
      intro t ht
      rcases this.2 t ht with h1 | h1
      · exact h1
      · rw [hclosed'] at h1; cases h1
  have sm : ∀ u p, u < n → ∀ t, upd s.pc u p t ≠ .idle → t < n := by
    intro u p hu t ht
    by_cases htu : t = u
    · exact htu ▸ hu
    · rw [upd_other htu] at ht; exact hsm t ht
  have si : ∀ u p, (∀ xs, p = .pushing xs false → xs.length = 1) →
      ∀ t xs, upd s.pc u p t = .pushing xs false → xs.length = 1 := by
    intro u p hp t xs ht
    by_cases htu : t = u
    · subst htu; simp at ht; exact hp xs ht
    · rw [upd_other htu] at ht; exact hsi t xs ht
  have wsi : ∀ f : Tid → Pc α, (∀ t xs, f t = .pushing xs false → xs.length = 1) → ∀ g : Tid → Pc α,
      (∀ v, g v = f v ∨ g v = wokenPc (f v)) → ∀ t xs, g t = .pushing xs false → xs.length = 1 := by
    intro f hf g hg t xs ht
    apply hf t xs
    rcases hg t with e' | e' <;> rw [e'] at ht
    · exact ht
    · cases hp : f t <;> simp [hp, wokenPc] at ht ⊢; exact ht
  have wakeW : ∀ (u : Tid) (p : Pc α), (∀ timed, p ≠ .blocked timed) → ∀ t, t ∈ s.waiters.erase u ↔
      ∃ timed, upd s.pc u p t = .blocked timed := by
    intro u p hp t
    by_cases htu : t = u
    · subst htu
      simp [hp, hnd.not_mem_erase]
    · rw [upd_other htu, List.mem_erase_of_ne htu]; exact hsl t
  have notb : ∀ u p, s.pc u = p → (∀ timed, p ≠ .blocked timed) → u ∉ s.waiters := by
    intro u p hp hne hu
    obtain ⟨timed, ht⟩ := (hsl u).mp hu
    rw [hp] at ht; exact hne _ ht
  have sl : ∀ u p, u ∉ s.waiters → (∀ timed, p ≠ .blocked timed) →
      ∀ t, t ∈ s.waiters ↔ ∃ timed, upd s.pc u p t = .blocked timed := by
    intro u p hu hp t
    by_cases htu : t = u
    · subst htu
      simp [hu, hp]
    · rw [upd_other htu]; exact hsl t
  have wsm : ∀ f : Tid → Pc α, (∀ t, f t ≠ .idle → t < n) → ∀ g : Tid → Pc α,
      (∀ v, g v = f v ∨ g v = wokenPc (f v)) → ∀ t, g t ≠ .idle → t < n := by
    intro f hf g hg t ht
    apply hf t
    intro e
    rcases hg t with e' | e' <;> rw [e', e] at ht <;> exact ht rfl
  -- bookkeeping when one awake thread appears, or nothing counts less
  have up : ∀ u p, u < n → ((s.pc u).awake = true → p.awake = true) →
      s.waiters = [] ∨ s.q.length ≤ awakeCount n (upd s.pc u p) := by
    intro u p hu hp
    rcases hen with h | h
    · exact Or.inl h
    · right
      have := countP_upd n s.pc u p hu
      cases h1 : (s.pc u).awake with
      | false => rw [h1] at this; simp at this; split at this <;> omega
      | true => rw [h1, hp h1] at this; simp at this; omega
  have aw : ∀ u p, s.pc u = p → (s.pc u).awake = p.awake := by intro u p hp; rw [hp]
  cases hst with
  | refused u xs all hp hc => exact ⟨hemp', hclosed', hhave', hsl, hnd, hsi, hsm, hen⟩
  | accepted u xs all hp hc hl =>
    exact ⟨hemp', hclosed', hhave', sl u _ (notb u _ hp (by simp)) (by simp), hnd, si u _ (fun xs e => by cases e; exact hl rfl), sm u _ hn,
      up u _ hn (by rw [hp]; simp [Pc.awake])⟩
  | pushAll u xs ho hp =>
    refine ⟨hemp', hclosed', hhave', ?_, by simp, ?_, ?_, Or.inl rfl⟩
    · intro t
      rw [wakeAll_pc]
      simp only [wakeAll_waiters, List.not_mem_nil, false_iff, not_exists]
      intro timed
      cases hq : (upd s.pc u .idle t) <;> simp [wokenPc]
    · exact wsi _ (si u .idle (by simp)) _ (fun v => Or.inr (wakeAll_pc _ v))
    · exact wsm _ (sm u .idle hn) _ (fun v => Or.inr (wakeAll_pc _ v))
  | pushNone u xs ho hp hw =>
    exact ⟨hemp', hclosed', hhave', sl u _ (notb u _ hp (by simp)) (by simp), hnd, si u _ (by simp), sm u _ hn, Or.inl hw⟩
  | pushOne u xs w ho hp hw =>
    have hl1 : xs.length = 1 := hsi u xs hp
    obtain ⟨timed, hwb⟩ := (hsl w).mp hw
    have hwu : w ≠ u := by intro e; subst e; rw [hp] at hwb; cases hwb
    have hwn : w < n := hsm w (by rw [hwb]; simp)
    have hwb' : upd s.pc u .idle w = .blocked timed := by rw [upd_other hwu]; exact hwb
    have e : ∀ q l, wakeOne { s with q := q, pc := upd s.pc u .idle, log := l } w =
        { s with q := q, log := l, waiters := s.waiters.erase w,
                 pc := upd (upd s.pc u .idle) w (.woken timed) } := by
      intro q l; simp [wakeOne, hwb']
    have hun : u ∉ s.waiters := notb u _ hp (by simp)
    have hcnt : s.q.length + 1 ≤ awakeCount n (upd (upd s.pc u .idle) w (.woken timed)) ∨ s.waiters = [] := by
      rcases hen with h | h
      · exact Or.inr h
      · left
        have h1 := countP_upd n s.pc u .idle hn
        have h2 := countP_upd n (upd s.pc u .idle) w (.woken timed) hwn
        rw [hp] at h1
        rw [hwb'] at h2
        simp [Pc.awake] at h1 h2
        omega
    rw [e] at hemp' hclosed' hhave' ⊢
    refine ⟨hemp', hclosed', hhave', ?_, hnd.erase w, ?_, ?_, ?_⟩
    · intro t
      show t ∈ s.waiters.erase w ↔ ∃ x, upd (upd s.pc u .idle) w (.woken timed) t = .blocked x
      by_cases htw : t = w
      · subst htw; simp [hnd.not_mem_erase]
      · rw [upd_other htw, List.mem_erase_of_ne htw]
        exact sl u .idle hun (by simp) t
    · intro t ys ht
      replace ht : upd (upd s.pc u .idle) w (.woken timed) t = .pushing ys false := ht
      by_cases htw : t = w
      · subst htw; simp at ht
      · rw [show upd (upd s.pc u .idle) w (.woken timed) t = upd s.pc u .idle t from upd_other htw] at ht
        exact si u .idle (by simp) t ys ht
    · intro t ht
      replace ht : upd (upd s.pc u .idle) w (.woken timed) t ≠ .idle := ht
      by_cases htw : t = w
      · exact htw ▸ hwn
      · rw [show upd (upd s.pc u .idle) w (.woken timed) t = upd s.pc u .idle t from upd_other htw] at ht
        exact sm u .idle hn t ht
    · right
      rcases hcnt with h | h
      · show (s.q ++ xs).length ≤ _
        simp [hl1]; exact h
      · rw [h] at hw; cases hw
  | callWait u timed ho hp =>
    exact ⟨hemp', hclosed', hhave', sl u _ (notb u _ hp (by simp)) (by simp), hnd, si u _ (by simp), sm u _ hn,
      up u _ hn (by simp [Pc.awake])⟩
  | isEmpty u timed last hp hq =>
    exact ⟨hemp', hclosed', hhave', sl u _ (notb u _ hp (by simp)) (by simp), hnd, si u _ (by simp), sm u _ hn,
      Or.inr (by simp [hq])⟩
  | notEmpty u timed last hp hq =>
    exact ⟨hemp', hclosed', hhave', sl u _ (notb u _ hp (by simp)) (by simp), hnd, si u _ (by simp), sm u _ hn,
      up u _ hn (by simp [Pc.awake])⟩
  | predClosed u timed last hp hq => rw [hop] at hq; cases hq
  | predLast u timed hp hq =>
    exact ⟨hemp', hclosed', hhave', sl u _ (notb u _ hp (by simp)) (by simp), hnd, si u _ (by simp), sm u _ hn,
      up u _ hn (by rw [hp]; simp [Pc.awake])⟩
  | predFalse u timed hp hq =>
    exact ⟨hemp', hclosed', hhave', sl u _ (notb u _ hp (by simp)) (by simp), hnd, si u _ (by simp), sm u _ hn,
      up u _ hn (by rw [hp]; simp [Pc.awake])⟩
  | block u timed hp =>
    have hun : u ∉ s.waiters := notb u _ hp (by simp)
    refine ⟨hemp', hclosed', hhave', ?_, List.nodup_cons.mpr ⟨hun, hnd⟩, si u _ (by simp), sm u _ hn, ?_⟩
    · intro t
      show t ∈ u :: s.waiters ↔ ∃ x, upd s.pc u (.blocked timed) t = .blocked x
      by_cases htu : t = u
      · subst htu; simp
      · rw [upd_other htu]; simp only [List.mem_cons, htu, false_or]; exact hsl t
    · right
      have : s.q = [] := hemp.2 u (by rw [hp]; rfl)
      simp [this]
  | spurious u timed hp =>
    have e : wakeOne s u = { s with waiters := s.waiters.erase u, pc := upd s.pc u (.woken timed) } := by
      simp [wakeOne, hp]
    rw [e] at hemp' hclosed' hhave' ⊢
    refine ⟨hemp', hclosed', hhave', wakeW u _ (by simp), hnd.erase u, si u _ (by simp), sm u _ hn, ?_⟩
    rcases up u (.woken timed) hn (by simp [Pc.awake]) with h | h
    · left; simp [h]
    · exact Or.inr h
  | timeout u hp =>
    refine ⟨hemp', hclosed', hhave', wakeW u _ (by simp), hnd.erase u, si u _ (by simp), sm u _ hn, ?_⟩
    rcases up u .expired hn (by simp [Pc.awake]) with h | h
    · left; simp [h]
    · exact Or.inr h
  | reWoken u timed ho hp =>
    exact ⟨hemp', hclosed', hhave', sl u _ (notb u _ hp (by simp)) (by simp), hnd, si u _ (by simp), sm u _ hn,
      up u _ hn (by simp [Pc.awake])⟩
  | reExpired u ho hp =>
    exact ⟨hemp', hclosed', hhave', sl u _ (notb u _ hp (by simp)) (by simp), hnd, si u _ (by simp), sm u _ hn,
      up u _ hn (by simp [Pc.awake])⟩
  | finishClosed u i hp hc => rw [hop] at hc; cases hc
  | finishUB u i hp hc hq => exact absurd hq (hhave u hp)
  | finishGot u i x hp hc hx hm =>
    refine ⟨hemp', hclosed', hhave', sl u _ (notb u _ hp (by simp)) (by simp), hnd, si u _ (by simp), sm u _ hn, ?_⟩
    rcases hen with h | h
    · exact Or.inl h
    · right
      have h1 := countP_upd n s.pc u .idle hn
      have hi : i < s.q.length := (List.getElem?_eq_some_iff.mp hx).1
      rw [hp] at h1
      simp [Pc.awake] at h1
      show (s.q.eraseIdx i).length ≤ awakeCount n (upd s.pc u .idle)
      rw [List.length_eraseIdx_of_lt hi]
      omega
  | tryGot u i x hp ho hc hx hm =>
    refine ⟨hemp', hclosed', hhave', hsl, hnd, hsi, hsm, ?_⟩
    rcases hen with h | h
    · exact Or.inl h
    · right
      have hi : i < s.q.length := (List.getElem?_eq_some_iff.mp hx).1
      show (s.q.eraseIdx i).length ≤ awakeCount n s.pc
      rw [List.length_eraseIdx_of_lt hi]
      omega
  | tryFailed u i hp ho hc => exact ⟨hemp', hclosed', hhave', hsl, hnd, hsi, hsm, hen⟩
  | closeAgain u hp hc => exact ⟨hemp', hclosed', hhave', hsl, hnd, hsi, hsm, hen⟩
  | close u hp hc => exact absurd rfl (hok u)
  | notifyAll u hp =>
    refine ⟨hemp', hclosed', hhave', ?_, by simp, ?_, ?_, Or.inl rfl⟩
    · intro t
      rw [wakeAll_pc]
      simp only [wakeAll_waiters, List.not_mem_nil, false_iff, not_exists]
      intro timed
      cases hq : (upd s.pc u .idle t) <;> simp [wokenPc]
    · exact wsi _ (si u .idle (by simp)) _ (fun v => Or.inr (wakeAll_pc _ v))
    · exact wsm _ (sm u .idle hn) _ (fun v => Or.inr (wakeAll_pc _ v))
  | reOpen u hp => exact ⟨hemp', hclosed', hhave', hsl, hnd, hsi, hsm, hen⟩
  | clear u hp ho => exact ⟨hemp', hclosed', hhave', hsl, hnd, hsi, hsm, Or.inr (by simp)⟩

/-- C54. In any run of `n` threads without `close`: if elements are queued while some
consumers are asleep, then enough consumers are awake to take all of them (so in
particular not every consumer can be asleep). -/
theorem no_sleep_while_work (n : Nat) (k : Kind α) (acts : List (Act α)) (s : State α)
    (hn : ∀ a ∈ acts, a.tid < n) (hok : ∀ a ∈ acts, ∀ t, a ≠ .callClose t)
    (h : run k (init α) acts = some s) (t : Tid) (timed : Bool) (ht : s.pc t = .blocked timed) :
    s.q.length ≤ (List.range n).countP fun u => (s.pc u).awake := by
  have : Busy n s := by
    refine run_inv (fun a => a.tid < n ∧ ∀ t, a ≠ .callClose t) (Busy n)
      (fun s a s' hb ha hs => busy_step hb ha.1 ha.2 hs) acts (init α) s ?_
      (fun a ha => ⟨hn a ha, hok a ha⟩) h
    exact ⟨emp_init, rfl, by simp [init], by simp [init], by simp [init], by simp [init], by simp [init],
      Or.inl rfl⟩
  rcases this.enough with h | h
  · have := (this.sleeping t).mpr ⟨timed, ht⟩
    rw [h] at this; cases this
  · exact h

/-! ### Non-vacuity: concrete runs -/

/-- Two producers, two consumers, one of which sleeps and is woken. -/
def demo : List (Act Nat) :=
  [.callWait 0 false, .evalEmpty 0, .evalClosed 0, .block 0,
   .callPush 1 [10] false, .callPush 2 [20, 21] true, .doPush 1 (some 0), .doPush 2 none,
   .reacquire 0, .evalEmpty 0, .finish 0 0, .tryPop 3 0]

example : (run (fifo Nat) (init Nat) demo).map (fun s => (s.q, s.closed, s.log)) =
    some ([21], false, [.accepted 1 [10], .accepted 2 [20, 21], .entered 1 10, .entered 2 20, .entered 2 21,
      .got 0 10, .got 3 20]) := by decide

/-- A timed wait that times out, and a closed one. -/
example : (run (fifo Nat) (init Nat) [.callWait 0 true, .evalEmpty 0, .evalClosed 0, .block 0, .timeout 0,
    .reacquire 0, .evalEmpty 0, .evalClosed 0, .callWait 1 false, .evalEmpty 1, .callClose 2,
    .evalClosed 1, .notifyAll 2, .finish 1 0]).map (fun s => (s.log, s.ub)) =
    some ([.gaveUp 0, .gaveUp 1], false) := by decide

/-- A run that closes while a consumer is asleep, outside the window: it is released. -/
def demoClose : List (Act Nat) :=
  [.callWait 0 false, .evalEmpty 0, .evalClosed 0, .block 0, .callClose 1, .notifyAll 1]

example : NoWindow (fifo Nat) (init Nat) demoClose := by
  have ex : ∀ (s s' : State Nat) a, step (fifo Nat) s a = some s' → ∀ s'', step (fifo Nat) s a = some s'' →
      s'' = s' := by intro s s' a h s'' h'; rw [h] at h'; cases h'; rfl
  refine ⟨by simp, fun s h => ?_⟩; cases h
  refine ⟨by simp, fun s h => ?_⟩; cases h
  refine ⟨by simp, fun s h => ?_⟩; cases h
  refine ⟨by simp, fun s h => ?_⟩; cases h
  refine ⟨by simp, fun s h => ?_⟩; cases h
  refine ⟨fun _ u timed => ?_, fun s h => trivial⟩
  by_cases h0 : u = 0 <;> by_cases h1 : u = 1 <;> simp [upd, h0, h1, init]

example : (run (fifo Nat) (init Nat) demoClose).map (fun s => (s.closed, s.pc 0)) =
    some (true, .woken false) := by decide

/-- An element and a sleeping consumer: consumers 0 and 1 sleep, one push wakes one. -/
example : (run (fifo Nat) (init Nat) [.callWait 0 false, .evalEmpty 0, .evalClosed 0, .block 0,
    .callWait 1 false, .evalEmpty 1, .evalClosed 1, .block 1, .callPush 2 [7] false, .doPush 2 (some 1)]).map
    (fun s => (s.q, s.pc 0, s.pc 1)) = some ([7], .blocked false, .woken false) := by decide

/-- A priority queue: 9 is served before 4 although it came later. -/
example : (run (prio fun a b => decide (a < b)) (init Nat) [.callPush 0 [4] false, .doPush 0 none,
    .callPush 0 [9] false, .doPush 0 none, .tryPop 1 1]).map (fun s => (s.q, s.log.getLast?)) =
    some ([4], some (.got 1 9)) := by decide

end Maf.Q
