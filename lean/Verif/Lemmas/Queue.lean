import Verif.Model.Queue
/-
Case analysis of queue steps, and invariants.
-/
namespace Maf.Q
variable {α : Type}

theorem isIdle_iff {p : Pc α} : p.isIdle = true ↔ p = .idle := by cases p <;> simp [Pc.isIdle]

/-- All ways a step can go, as a relation (used for case analysis only). -/
inductive Step (k : Kind α) (s : State α) : Act α → State α → Prop
  | refused (t xs all) : s.pc t = .idle → s.closed = true →
      Step k s (.callPush t xs all) { s with log := s.log ++ [.refused t xs] }
  | accepted (t xs all) : s.pc t = .idle → s.closed = false → (all = false → xs.length = 1) →
      Step k s (.callPush t xs all)
        { s with pc := upd s.pc t (.pushing xs all), log := s.log ++ [.accepted t xs] }
  | pushAll (t xs) : s.owner = none → s.pc t = .pushing xs true →
      Step k s (.doPush t none) (wakeAll { s with
        q := s.q ++ xs, pc := upd s.pc t .idle
        log := s.log ++ xs.map fun x => .entered t x })
  | pushNone (t xs) : s.owner = none → s.pc t = .pushing xs false → s.waiters = [] →
      Step k s (.doPush t none) { s with
        q := s.q ++ xs, pc := upd s.pc t .idle
        log := s.log ++ xs.map fun x => .entered t x }
  | pushOne (t xs w) : s.owner = none → s.pc t = .pushing xs false → w ∈ s.waiters →
      Step k s (.doPush t (some w)) (wakeOne { s with
        q := s.q ++ xs, pc := upd s.pc t .idle
        log := s.log ++ xs.map fun x => .entered t x } w)
  | callWait (t timed) : s.owner = none → s.pc t = .idle →
      Step k s (.callWait t timed) { s with owner := some t, pc := upd s.pc t (.checkEmpty timed false) }
  | isEmpty (t timed last) : s.pc t = .checkEmpty timed last → s.q = [] →
      Step k s (.evalEmpty t) { s with pc := upd s.pc t (.checkClosed timed last) }
  | notEmpty (t timed last) : s.pc t = .checkEmpty timed last → s.q ≠ [] →
      Step k s (.evalEmpty t) { s with pc := upd s.pc t .recheck }
  | predClosed (t timed last) : s.pc t = .checkClosed timed last → s.closed = true →
      Step k s (.evalClosed t) { s with pc := upd s.pc t .recheck }
  | predLast (t timed) : s.pc t = .checkClosed timed true → s.closed = false →
      Step k s (.evalClosed t)
        { s with pc := upd s.pc t .idle, owner := none, log := s.log ++ [.gaveUp t] }
  | predFalse (t timed) : s.pc t = .checkClosed timed false → s.closed = false →
      Step k s (.evalClosed t) { s with pc := upd s.pc t (.willBlock timed) }
  | block (t timed) : s.pc t = .willBlock timed →
      Step k s (.block t)
        { s with pc := upd s.pc t (.blocked timed), owner := none, waiters := t :: s.waiters }
  | spurious (t timed) : s.pc t = .blocked timed → Step k s (.spurious t) (wakeOne s t)
  | timeout (t) : s.pc t = .blocked true →
      Step k s (.timeout t) { s with waiters := s.waiters.erase t, pc := upd s.pc t .expired }
  | reWoken (t timed) : s.owner = none → s.pc t = .woken timed →
      Step k s (.reacquire t) { s with owner := some t, pc := upd s.pc t (.checkEmpty timed false) }
  | reExpired (t) : s.owner = none → s.pc t = .expired →
      Step k s (.reacquire t) { s with owner := some t, pc := upd s.pc t (.checkEmpty true true) }
  | finishClosed (t i) : s.pc t = .recheck → s.closed = true →
      Step k s (.finish t i)
        { s with pc := upd s.pc t .idle, owner := none, log := s.log ++ [.gaveUp t] }
  | finishUB (t i) : s.pc t = .recheck → s.closed = false → s.q = [] →
      Step k s (.finish t i) { s with ub := true }
  | finishGot (t i x) : s.pc t = .recheck → s.closed = false → s.q[i]? = some x →
      k.mayBeFront s.q i = true →
      Step k s (.finish t i) { s with
        q := s.q.eraseIdx i, pc := upd s.pc t .idle, owner := none, log := s.log ++ [.got t x] }
  | tryGot (t i x) : s.pc t = .idle → s.owner = none → s.closed = false → s.q[i]? = some x →
      k.mayBeFront s.q i = true →
      Step k s (.tryPop t i) { s with q := s.q.eraseIdx i, log := s.log ++ [.got t x] }
  | tryFailed (t i) : s.pc t = .idle → s.owner = none → (s.q = [] ∨ s.closed = true) →
      Step k s (.tryPop t i) { s with log := s.log ++ [.gaveUp t] }
  | closeAgain (t) : s.pc t = .idle → s.closed = true → Step k s (.callClose t) s
  | close (t) : s.pc t = .idle → s.closed = false →
      Step k s (.callClose t) { s with closed := true, pc := upd s.pc t .closing }
  | notifyAll (t) : s.pc t = .closing →
      Step k s (.notifyAll t) (wakeAll { s with pc := upd s.pc t .idle })
  | reOpen (t) : s.pc t = .idle → Step k s (.reOpen t) { s with closed := false }
  | clear (t) : s.pc t = .idle → s.owner = none →
      Step k s (.clear t) { s with q := [], log := s.log ++ s.q.map .cleared }

theorem body_cases {k : Kind α} {s s' : State α} {a : Act α} (h : body k s a = some s') :
    Step k s a s' := by
    cases a with
    | callPush t xs all =>
      simp only [body] at h
      split at h
      · cases h
      · next hc =>
        simp only [not_or, Bool.not_eq_false, isIdle_iff, not_and] at hc
        split at h
        · next hcl => cases h; exact .refused t xs all hc.1 hcl
        · next hcl =>
          cases h
          exact .accepted t xs all hc.1 (by simpa using hcl) (fun e => by simpa using hc.2 e)
    | doPush t wake =>
      simp only [body] at h
      split at h
      · cases h
      · next hc =>
        have ho : s.owner = none := by simpa using hc
        split at h
        · next xs all hp =>
          split at h
          · next ha =>
            subst ha
            split at h
            · next hw => subst hw; cases h; exact .pushAll t xs ho hp
            · cases h
          · next ha =>
            have ha : all = false := by simpa using ha
            subst ha
            split at h
            · split at h
              · next hw => cases h; exact .pushNone t xs ho hp hw
              · cases h
            · split at h
              · next hw => cases h; exact .pushOne t xs _ ho hp hw
              · cases h
        · cases h
    | callWait t timed =>
      simp only [body] at h
      split at h
      · cases h
      · next hc =>
        simp only [not_or, Bool.not_eq_false, isIdle_iff,
          Decidable.not_not] at hc
        cases h; exact .callWait t timed hc.2 hc.1
    | evalEmpty t =>
      simp only [body] at h
      split at h
      · next hp =>
        split at h
        · next hq => cases h; exact .isEmpty t _ _ hp hq
        · next hq => cases h; exact .notEmpty t _ _ hp hq
      · cases h
    | evalClosed t =>
      simp only [body] at h
      split at h
      · next hp =>
        split at h
        · next hq => cases h; exact .predClosed t _ _ hp hq
        · next hq =>
          split at h
          · next hl => subst hl; cases h; exact .predLast t _ hp (by simpa using hq)
          · next hl =>
            have hl := Bool.not_eq_true _ ▸ hl
            subst hl
            cases h; exact .predFalse t _ hp (by simpa using hq)
      · cases h
    | block t =>
      simp only [body] at h
      split at h
      · next hp => cases h; exact .block t _ hp
      · cases h
    | spurious t =>
      simp only [body] at h
      split at h
      · next hp => cases h; exact .spurious t _ hp
      · cases h
    | timeout t =>
      simp only [body] at h
      split at h
      · next hp => cases h; exact .timeout t hp
      · cases h
    | reacquire t =>
      simp only [body] at h
      split at h
      · cases h
      · next hc =>
        have ho : s.owner = none := by simpa using hc
        split at h
        · next hp => cases h; exact .reWoken t _ ho hp
        · next hp => cases h; exact .reExpired t ho hp
        · cases h
    | finish t i =>
      simp only [body] at h
      split at h
      · next hp =>
        split at h
        · next hcl => cases h; exact .finishClosed t i hp hcl
        · next hcl =>
          have hcl : s.closed = false := by simpa using hcl
          split at h
          · next hq => cases h; exact .finishUB t i hp hcl hq
          · split at h
            · next x hx =>
              split at h
              · next hm => cases h; exact .finishGot t i x hp hcl hx hm
              · cases h
            · cases h
      · cases h
    | tryPop t i =>
      simp only [body] at h
      split at h
      · cases h
      · next hc =>
        simp only [not_or, Bool.not_eq_false, isIdle_iff,
          Decidable.not_not] at hc
        split at h
        · next hq =>
          split at h
          · next x hx =>
            split at h
            · next hm => cases h; exact .tryGot t i x hc.1 hc.2 hq.2 hx hm
            · cases h
          · cases h
        · next hq =>
          cases h
          refine .tryFailed t i hc.1 hc.2 ?_
          by_cases he : s.q = []
          · exact Or.inl he
          · exact Or.inr (by simpa [he] using hq)
    | callClose t =>
      simp only [body] at h
      split at h
      · cases h
      · next hc =>
        simp only [Bool.not_eq_false, isIdle_iff] at hc
        split at h
        · next hcl => cases h; exact .closeAgain t hc hcl
        · next hcl => cases h; exact .close t hc (by simpa using hcl)
    | notifyAll t =>
      simp only [body] at h
      split at h
      · next hp => cases h; exact .notifyAll t hp
      · cases h
    | reOpen t =>
      simp only [body] at h
      split at h
      · cases h
      · next hc =>
        simp only [Bool.not_eq_false, isIdle_iff] at hc
        cases h; exact .reOpen t hc
    | clear t =>
      simp only [body] at h
      split at h
      · cases h
      · next hc =>
        simp only [not_or, Bool.not_eq_false, isIdle_iff,
          Decidable.not_not] at hc
        cases h; exact .clear t hc.1 hc.2

theorem step_cases {k : Kind α} {s s' : State α} {a : Act α} (h : step k s a = some s') :
    s.ub = false ∧ Step k s a s' := by
  simp only [step] at h
  split at h
  · cases h
  · next hub => exact ⟨by simpa using hub, body_cases h⟩

/-- Induction over runs: an invariant of the steps allowed by `ok` holds after every run
made of such steps. -/
theorem run_inv {k : Kind α} (ok : Act α → Prop) (Inv : State α → Prop)
    (hstep : ∀ s a s', Inv s → ok a → step k s a = some s' → Inv s')
    (acts : List (Act α)) (s s' : State α) (h0 : Inv s) (hok : ∀ a ∈ acts, ok a)
    (h : run k s acts = some s') : Inv s' := by
  induction acts generalizing s with
  | nil => cases h; exact h0
  | cons a as ih =>
    simp only [run] at h
    cases hs : step k s a with
    | none => simp [hs] at h
    | some s1 =>
      simp only [hs, Option.bind_some] at h
      exact ih s1 (hstep s a s1 h0 (hok a (by simp)) hs) (fun a ha => hok a (by simp [ha])) h

/-- The same with the actions done so far. -/
theorem run_inv_hist {k : Kind α} (Inv : List (Act α) → State α → Prop)
    (hstep : ∀ pre s a s', Inv pre s → step k s a = some s' → Inv (pre ++ [a]) s')
    (acts : List (Act α)) (pre : List (Act α)) (s s' : State α) (h0 : Inv pre s)
    (h : run k s acts = some s') : Inv (pre ++ acts) s' := by
  induction acts generalizing s pre with
  | nil => cases h; simpa using h0
  | cons a as ih =>
    simp only [run] at h
    cases hs : step k s a with
    | none => simp [hs] at h
    | some s1 =>
      simp only [hs, Option.bind_some] at h
      have := ih (pre ++ [a]) s1 (hstep pre s a s1 h0 hs) h
      simpa using this

@[simp] theorem upd_same (f : Tid → Pc α) (t : Tid) (p : Pc α) : upd f t p t = p := by simp [upd]
theorem upd_other {f : Tid → Pc α} {t u : Tid} {p : Pc α} (h : u ≠ t) : upd f t p u = f u := by
  simp [upd, h]

/-- What waking up does to a program counter. -/
def wokenPc : Pc α → Pc α
  | .blocked timed => .woken timed
  | p => p

theorem wakeAll_pc (s : State α) (u : Tid) : (wakeAll s).pc u = wokenPc (s.pc u) := by
  simp only [wakeAll, wokenPc]
  cases s.pc u <;> rfl

theorem wakeOne_pc (s : State α) (w u : Tid) :
    (wakeOne s w).pc u = if u = w then wokenPc (s.pc u) else s.pc u := by
  simp only [wakeOne]
  split
  · next h =>
    by_cases hu : u = w
    · subst hu; simp [h, wokenPc]
    · simp [upd, hu]
  · next h =>
    by_cases hu : u = w
    · subst hu
      simp only [if_true]
      cases hp : s.pc u <;> simp [wokenPc]
      exact absurd hp (h _)
    · simp [hu]

@[simp] theorem wakeOne_q (s : State α) (w : Tid) : (wakeOne s w).q = s.q := by
  simp only [wakeOne]; split <;> rfl
@[simp] theorem wakeOne_log (s : State α) (w : Tid) : (wakeOne s w).log = s.log := by
  simp only [wakeOne]; split <;> rfl
@[simp] theorem wakeOne_closed (s : State α) (w : Tid) : (wakeOne s w).closed = s.closed := by
  simp only [wakeOne]; split <;> rfl
@[simp] theorem wakeOne_owner (s : State α) (w : Tid) : (wakeOne s w).owner = s.owner := by
  simp only [wakeOne]; split <;> rfl
@[simp] theorem wakeOne_ub (s : State α) (w : Tid) : (wakeOne s w).ub = s.ub := by
  simp only [wakeOne]; split <;> rfl
@[simp] theorem wakeAll_q (s : State α) : (wakeAll s).q = s.q := rfl
@[simp] theorem wakeAll_log (s : State α) : (wakeAll s).log = s.log := rfl
@[simp] theorem wakeAll_closed (s : State α) : (wakeAll s).closed = s.closed := rfl
@[simp] theorem wakeAll_owner (s : State α) : (wakeAll s).owner = s.owner := rfl
@[simp] theorem wakeAll_ub (s : State α) : (wakeAll s).ub = s.ub := rfl
@[simp] theorem wakeAll_waiters (s : State α) : (wakeAll s).waiters = [] := rfl

/-- Holds the mutex. -/
def Pc.holds : Pc α → Bool
  | .checkEmpty _ _ | .checkClosed _ _ | .willBlock _ | .recheck => true
  | _ => false

@[simp] theorem holds_woken (p : Pc α) : (wokenPc p).holds = p.holds := by cases p <;> rfl

/-- Mutual exclusion. -/
def Excl (s : State α) : Prop := ∀ t, (s.pc t).holds = true → s.owner = some t

theorem excl_step {k : Kind α} {s s' : State α} {a : Act α} (h : Excl s) (hs : step k s a = some s') :
    Excl s' := by
  have hst := (step_cases hs).2
  have key : ∀ (t : Tid) (p : Pc α) (o : Option Tid), (o = s.owner ∨ (s.owner = some t ∧ o = none)
      ∨ (s.owner = none ∧ o = some t)) → (p.holds = true → o = some t) →
      ∀ u, (upd s.pc t p u).holds = true → o = some u := by
    intro t p o ho hp u hu
    by_cases hut : u = t
    · subst hut; simp at hu; exact hp hu
    · rw [upd_other hut] at hu
      have := h u hu
      rcases ho with ho | ⟨ho, _⟩ | ⟨ho, _⟩
      · rw [ho]; exact this
      · rw [ho] at this; cases this; exact absurd rfl hut
      · rw [ho] at this; cases this
  have hown : ∀ t p, s.pc t = p → p.holds = true → s.owner = some t := by
    intro t p hp hh; exact h t (by rw [hp]; exact hh)
  cases hst with
  | refused t xs all hp hc => exact h
  | accepted t xs all hp hc hl => exact key t _ _ (Or.inl rfl) (by simp [Pc.holds])
  | pushAll t xs ho hp =>
    intro u hu
    rw [wakeAll_pc, holds_woken] at hu
    exact key t _ _ (Or.inl rfl) (by simp [Pc.holds]) u hu
  | pushNone t xs ho hp hw => exact key t _ _ (Or.inl rfl) (by simp [Pc.holds])
  | pushOne t xs w ho hp hw =>
    intro u hu
    rw [wakeOne_pc] at hu
    simp only [wakeOne_owner]
    split at hu
    · rw [holds_woken] at hu
      exact key t _ _ (Or.inl rfl) (by simp [Pc.holds]) u hu
    · exact key t _ _ (Or.inl rfl) (by simp [Pc.holds]) u hu
  | callWait t timed ho hp => exact key t _ _ (Or.inr (Or.inr ⟨ho, rfl⟩)) (by simp)
  | isEmpty t timed last hp hq => exact key t _ _ (Or.inl rfl) (fun _ => hown t _ hp rfl)
  | notEmpty t timed last hp hq => exact key t _ _ (Or.inl rfl) (fun _ => hown t _ hp rfl)
  | predClosed t timed last hp hq => exact key t _ _ (Or.inl rfl) (fun _ => hown t _ hp rfl)
  | predLast t timed hp hq =>
    exact key t _ _ (Or.inr (Or.inl ⟨hown t _ hp rfl, rfl⟩)) (by simp [Pc.holds])
  | predFalse t timed hp hq => exact key t _ _ (Or.inl rfl) (fun _ => hown t _ hp rfl)
  | block t timed hp => exact key t _ _ (Or.inr (Or.inl ⟨hown t _ hp rfl, rfl⟩)) (by simp [Pc.holds])
  | spurious t timed hp =>
    intro u hu
    rw [wakeOne_pc] at hu
    simp only [wakeOne_owner]
    split at hu
    · rw [holds_woken] at hu; exact h u hu
    · exact h u hu
  | timeout t hp => exact key t _ _ (Or.inl rfl) (by simp [Pc.holds])
  | reWoken t timed ho hp => exact key t _ _ (Or.inr (Or.inr ⟨ho, rfl⟩)) (by simp)
  | reExpired t ho hp => exact key t _ _ (Or.inr (Or.inr ⟨ho, rfl⟩)) (by simp)
  | finishClosed t i hp hc =>
    exact key t _ _ (Or.inr (Or.inl ⟨hown t _ hp rfl, rfl⟩)) (by simp [Pc.holds])
  | finishUB t i hp hc hq => exact h
  | finishGot t i x hp hc hx hm =>
    exact key t _ _ (Or.inr (Or.inl ⟨hown t _ hp rfl, rfl⟩)) (by simp [Pc.holds])
  | tryGot t i x hp ho hc hx hm => exact h
  | tryFailed t i hp ho hc => exact h
  | closeAgain t hp hc => exact h
  | close t hp hc => exact key t _ _ (Or.inl rfl) (by simp [Pc.holds])
  | notifyAll t hp =>
    intro u hu
    rw [wakeAll_pc, holds_woken] at hu
    exact key t _ _ (Or.inl rfl) (by simp [Pc.holds]) u hu
  | reOpen t hp => exact h
  | clear t hp ho => exact h

theorem excl_init : Excl (init α) := by intro t h; simp [init, Pc.holds] at h

/-- The owner of the mutex is inside. -/
def Owned (s : State α) : Prop := ∀ t, s.owner = some t → (s.pc t).holds = true

theorem owned_step {k : Kind α} {s s' : State α} {a : Act α} (he : Excl s) (h : Owned s) (hs : step k s a = some s') :
    Owned s' := by
  have hst := (step_cases hs).2
  have keep : ∀ (t : Tid) (p : Pc α), (s.pc t).holds = false → ∀ u, s.owner = some u → (upd s.pc t p u).holds = true := by
    intro t p hp u hu
    by_cases hut : u = t
    · subst hut; rw [h u hu] at hp; cases hp
    · rw [upd_other hut]; exact h u hu
  have stay : ∀ (t : Tid) (p : Pc α), p.holds = true → ∀ u, s.owner = some u → (upd s.pc t p u).holds = true := by
    intro t p hp u hu
    by_cases hut : u = t
    · subst hut; simpa using hp
    · rw [upd_other hut]; exact h u hu
  have leave : ∀ (t : Tid) (p : Pc α), ∀ u, (none : Option Tid) = some u → (upd s.pc t p u).holds = true := by
    intro t p u hu; cases hu
  have take : ∀ (t : Tid) (p : Pc α), p.holds = true → ∀ u, some t = some u → (upd s.pc t p u).holds = true := by
    intro t p hp u hu
    cases hu; simpa using hp
  have out : ∀ (t : Tid) (p : Pc α), s.pc t = p → p.holds = false → (s.pc t).holds = false := by
    intro t p hp hh; rw [hp]; exact hh
  cases hst with
  | refused t xs all hp hc => exact h
  | accepted t xs all hp hc hl => exact keep t _ (out t _ hp rfl)
  | pushAll t xs ho hp =>
    intro u hu
    rw [wakeAll_pc, holds_woken]
    exact keep t _ (out t _ hp rfl) u hu
  | pushNone t xs ho hp hw => exact keep t _ (out t _ hp rfl)
  | pushOne t xs w ho hp hw =>
    intro u hu
    rw [wakeOne_pc]
    simp only [wakeOne_owner] at hu
    split
    · rw [holds_woken]; exact keep t _ (out t _ hp rfl) u hu
    · exact keep t _ (out t _ hp rfl) u hu
  | callWait t timed ho hp => exact take t _ rfl
  | isEmpty t timed last hp hq => exact stay t _ rfl
  | notEmpty t timed last hp hq => exact stay t _ rfl
  | predClosed t timed last hp hq => exact stay t _ rfl
  | predLast t timed hp hq => exact leave t _
  | predFalse t timed hp hq => exact stay t _ rfl
  | block t timed hp => exact leave t _
  | spurious t timed hp =>
    intro u hu
    rw [wakeOne_pc]
    simp only [wakeOne_owner] at hu
    split
    · rw [holds_woken]; exact h u hu
    · exact h u hu
  | timeout t hp => exact keep t _ (out t _ hp rfl)
  | reWoken t timed ho hp => exact take t _ rfl
  | reExpired t ho hp => exact take t _ rfl
  | finishClosed t i hp hc => exact leave t _
  | finishUB t i hp hc hq => exact h
  | finishGot t i x hp hc hx hm => exact leave t _
  | tryGot t i x hp ho hc hx hm => exact h
  | tryFailed t i hp ho hc => exact h
  | closeAgain t hp hc => exact h
  | close t hp hc => exact keep t _ (out t _ hp rfl)
  | notifyAll t hp =>
    intro u hu
    rw [wakeAll_pc, holds_woken]
    exact keep t _ (out t _ hp rfl) u hu
  | reOpen t hp => exact h
  | clear t hp ho => exact h

theorem excl_owned_run {k : Kind α} : ∀ (acts : List (Act α)) (s s' : State α), Excl s → Owned s → run k s acts = some s' →
    Excl s' ∧ Owned s'
  | [], s, s', h1, h2, h => by simp only [run, Option.some.injEq] at h; subst h; exact ⟨h1, h2⟩
  | a :: as, s, s', h1, h2, h => by
    simp only [run] at h
    cases hs : step k s a with
    | none => simp [hs] at h
    | some s1 =>
      simp only [hs, Option.bind_some] at h
      exact excl_owned_run as s1 s' (excl_step h1 hs) (owned_step h1 h2 hs) h

theorem owned_init : Owned (init α) := by intro t h; simp [init] at h

end Maf.Q
