import Verif.Lemmas.StatusCallback

/-!
C97: callbacks for the status of a service.

Specification: `listedIn log` is who has registered and was neither unregistered nor removed, `handedIn o log` the changes given to the executor of callback `o`
(and the greeting), `calledIn o log` what it was called with. Every change should be given once to everybody in the list, and the callback called with exactly
this, in order, by the executor's thread; only `unregister` should end this.
-/

namespace Maf.Watch

variable {c : Conf} {as : List Act} {s : State}

/-- who is told what -/
def toldIn (log : List Ev) : List (Nat × Avail × Avail) :=
  log.filterMap fun
    | .told o x y => some (o, x, y)
    | _ => none

/-- the tasks that wait for callback `o` -/
def State.pend (c : Conf) (s : State) (o : Nat) : List (Avail × Avail) :=
  (s.queue (proc c o)).filterMap fun t => if t.obs = o then some (t.old, t.new) else none

/-- **C97.** Every change is told once (or is about to be). -/
theorem changes_told (hr : runs c init as = some s) : (lockedIn s.log ++ s.waiting).Perm (changedIn s.log) := (reach_inv (inv_init c) hr).waiting

/-- **C97.** A change is told to those in the list, each once, in order. -/
theorem told_all (hr : runs c init as = some s) {a b d : List Ev} {x y : Avail} {l : List Nat} (hs : s.log = a ++ .locked x y l :: (b ++ .unlocked :: d)) (hb : .unlocked ∉ b) :
    l = listedIn a ∧ toldIn b = l.map fun o => (o, x, y) := by
  have hI := (reach_inv (inv_init c) hr).hist
  rw [hs] at hI
  refine ⟨(hI.all a _ _ rfl).2, ?_⟩
  -- from the locking on, what is told and what is still to be told make up the list
  have key : ∀ b' r, b = b' ++ r → ∃ todo, phase (a ++ [.locked x y l] ++ b') = some (x, y, todo) ∧ toldIn b' ++ todo.map (fun o => (o, x, y)) = l.map fun o => (o, x, y) := by
    intro b'
    refine snoc_induct (motive := fun b' => ∀ r, b = b' ++ r → ∃ todo, phase (a ++ [.locked x y l] ++ b') = some (x, y, todo) ∧ toldIn b' ++ todo.map (fun o => (o, x, y)) = l.map fun o => (o, x, y)) ?_ ?_ b'
    · intro r _
      exact ⟨l, by rw [List.append_nil, phase_snoc]; rfl, rfl⟩
    · intro b' e ih r hr
      obtain ⟨todo, h1, h2⟩ := ih (e :: r) (by rw [hr, List.append_assoc]; rfl)
      have hrule : Rule c (a ++ [.locked x y l] ++ b') e := hI.all _ _ (r ++ .unlocked :: d) (by rw [hr]; simp)
      rw [← List.append_assoc, phase_snoc, h1]
      cases e with
      | told o x' y' =>
        obtain ⟨rest, h3⟩ := hrule
        rw [h1] at h3; cases h3
        refine ⟨rest, rfl, ?_⟩
        rw [← h2]; simp [toldIn]
      | locked x' y' l' => have h3 := hrule.1; rw [h1] at h3; cases h3
      | unlocked => exact absurd (by rw [hr]; simp) hb
      | _ => exact ⟨todo, rfl, by rw [← h2]; simp [toldIn]⟩
  obtain ⟨todo, h1, h2⟩ := key b [] (List.append_nil b).symm
  have h4 : Rule c (a ++ [.locked x y l] ++ b) .unlocked := hI.all _ _ d (by simp)
  obtain ⟨x', y', h3⟩ := h4
  rw [h1] at h3; cases h3
  rw [← h2]; simp

/-- **C97.** Nobody enters the list while a change is told. -/
theorem none_between (hr : runs c init as = some s) {a b d : List Ev} {x y : Avail} {l : List Nat} (hs : s.log = a ++ .locked x y l :: (b ++ d)) (hb : .unlocked ∉ b) (o : Nat) (v : Avail) : .registered o v ∉ b := by
  intro hm
  have hI := (reach_inv (inv_init c) hr).hist
  rw [hs] at hI
  have key : ∀ b', (∃ r, b = b' ++ r) → phase (a ++ [.locked x y l] ++ b') ≠ none := by
    intro b'
    refine snoc_induct (motive := fun b' => (∃ r, b = b' ++ r) → phase (a ++ [.locked x y l] ++ b') ≠ none) ?_ ?_ b'
    · intro _; rw [List.append_nil, phase_snoc]; simp [phaseStep]
    · rintro b' e ih ⟨r, hr⟩
      have := ih ⟨e :: r, by rw [hr, List.append_assoc]; rfl⟩
      rw [← List.append_assoc, phase_snoc]
      cases hph : phase (a ++ [.locked x y l] ++ b') with
      | none => exact absurd hph this
      | some z =>
        cases e <;> simp [phaseStep]
        exact hb (by rw [hr]; simp)
  obtain ⟨b1, b2, e⟩ := List.append_of_mem hm
  have hrule := hI.all (a ++ [.locked x y l] ++ b1) (.registered o v) (b2 ++ d) (by rw [e]; simp)
  exact key b1 ⟨_, e⟩ hrule.2

/-- **C97, in part.** Unless its processor is stopped or let go, a callback is called (or about to be) with exactly what was given to its executor, each once; in order,
if the executor is direct or asynchronous (missing: the rest, see below). -/
theorem called_exactly_partial (hr : runs c init as = some s) (o : Nat) (hh : ¬ halted c o s.log) :
    (calledIn o s.log ++ s.pend c o).Perm (handedIn o s.log) ∧ ((∀ p, c.exec o ≠ .dflt p) → calledIn o s.log ++ s.pend c o = handedIn o s.log) := by
  have hI := (reach_inv (inv_init c) hr).served
  obtain ⟨lost, h1, h2⟩ := hI.once o
  rw [h2 hh, List.append_nil] at h1
  exact ⟨h1, fun ho => (hI.order o ho).eq_of_length h1.length_eq⟩

/-- **C97.** In any case it is called at most once with each, and with nothing else; in order, if the executor is direct or asynchronous. -/
theorem called_at_most (hr : runs c init as = some s) (o : Nat) :
    (∀ z, (calledIn o s.log).count z ≤ (handedIn o s.log).count z) ∧ ((∀ p, c.exec o ≠ .dflt p) → (calledIn o s.log).Sublist (handedIn o s.log)) := by
  have hI := (reach_inv (inv_init c) hr).served
  refine ⟨fun z => ?_, fun ho => (List.sublist_append_left _ _).trans (hI.order o ho)⟩
  obtain ⟨lost, h1, -⟩ := hI.once o
  rw [← h1.count_eq, List.count_append, List.count_append]; omega

/-- **C97.** A callback is not called before it was given to the executor, and by a thread of the executor's processor. -/
theorem called_there (hr : runs c init as = some s) {l r : List Ev} {o : Nat} {x y : Avail} {on : Option Nat} (hs : s.log = l ++ .called o x y on :: r) :
    (x, y) ∈ handedIn o l ∧ (c.exec o ≠ .direct → on = some (proc c o)) := (reach_inv (inv_init c) hr).hist.all _ _ _ hs

/-- **C97.** A registration gives the current status once if the service is available when it enters the list, else not at all. -/
theorem greeted_once (hr : runs c init as = some s) (o : Nat) : (.greeted o ∈ s.log ∨ o ∈ s.greets ↔ .registered o .available ∈ s.log) ∧ s.log.count (.greeted o) ≤ 1 := by
  have hI := reach_inv (inv_init c) hr
  refine ⟨⟨?_, ?_⟩, ?_⟩
  · rintro (h | h)
    · obtain ⟨l, r, e⟩ := List.append_of_mem h
      rw [e]; exact List.mem_append.mpr (.inl (hI.hist.all _ _ _ e).1)
    · exact ((hI.greet o).mp h).1
  · intro h
    by_cases hg : .greeted o ∈ s.log
    · exact .inl hg
    · exact .inr ((hI.greet o).mpr ⟨h, hg⟩)
  · have : ∀ l, Hist (Rule c) l → l.count (.greeted o) ≤ 1 := by
      intro l
      refine snoc_induct (motive := fun l => Hist (Rule c) l → l.count (.greeted o) ≤ 1) (fun _ => by simp) ?_ l
      intro l e ih h
      rw [List.count_append]
      by_cases he : e = .greeted o
      · subst he
        have := (h.all l _ [] rfl).2
        rw [List.count_eq_zero_of_not_mem this]; simp
      · have := ih h.left
        rw [List.count_singleton, if_neg (by rw [beq_iff_eq]; exact he)]; omega
    exact this _ hI.hist

/-- **C97.** Callbacks are removed only if their processor was let go, or the direct executor has caught an exception of theirs. -/
theorem removed_because (hr : runs c init as = some s) {l r : List Ev} {o : Nat} (hs : s.log = l ++ .removed o :: r) :
    (c.exec o = .direct ∧ c.throws o = true) ∨ (c.exec o ≠ .direct ∧ .gone (proc c o) ∈ l) := (reach_inv (inv_init c) hr).hist.all _ _ _ hs

theorem hand_says {c : Conf} {s : State} {on : Option Nat} {o : Nat} {out : Out} (h : outcome c s on o = out) (hk : out = .killed) : c.throws o = true ∧ ∃ p, c.exec o = .dflt p ∧ on = some p := by
  subst hk
  unfold outcome at h
  cases he : c.exec o with
  | direct => rw [he] at h; dsimp only at h; split at h <;> cases h
  | async p => rcases outcome_async (s := s) (on := on) he with h' | h' | h' <;> (unfold outcome at h'; rw [h] at h'; cases h')
  | dflt p =>
    rw [he] at h
    have h : onDflt c s p on o = .killed := h
    unfold onDflt at h
    split at h
    · split at h
      · cases h
      · split at h
        · next e =>
          split at h
          · next ht => exact ⟨ht, p, rfl, e⟩
          · cases h
        · cases h
    · cases h

/-- **C97.** The program is ended only by a registration whose executor refuses, or by a callback that throws on its default executor's own thread. -/
theorem terminates_when (hr : runs c init as = some s) {a : Act} {t : State} (hs : step c s a = some t) (hd : t.dead = true) :
    (∃ o on, a = .greet o on ∧ mayRefuse c s.log o) ∨ ∃ o p, c.exec o = .dflt p ∧ c.throws o = true ∧ (a = .greet o (some p) ∨ (a = .tell ∧ ∃ w rest, s.walk = some w ∧ w.todo = o :: rest ∧ w.on = some p)) := by
  have hI := reach_inv (inv_init c) hr
  have hnd : s.dead = false := by
    unfold step at hs; split at hs
    · cases hs
    · next h => exact Bool.eq_false_iff.mpr h
  have hs := step_live hs
  cases a with
  | greet o on =>
    simp only [live, Watch.greet] at hs
    split at hs
    case isFalse => cases hs
    case isTrue hg =>
    cases hs
    have may : (outcome c s on o).says = false → mayRefuse c s.log o := fun h => (outcome_refuses h).imp id fun h => ⟨h.1, hI.alive _ h.2⟩
    rw [hand_eq] at hd
    replace hd : (afterGreet { s with greets := s.greets.erase o, log := s.log ++ [.greeted o] ++ handEv (outcome c s on o) on o .unknown .available, queue := handQ c { s.note [.greeted o] with greets := s.greets.erase o } (outcome c s on o) o .unknown .available, dead := s.dead || outcome c s on o == .killed } (outcome c s on o)).dead = true := hd
    cases hout : outcome c s on o with
    | refused => exact .inl ⟨o, on, rfl, may (by rw [hout]; rfl)⟩
    | caught => exact .inl ⟨o, on, rfl, may (by rw [hout]; rfl)⟩
    | killed =>
      obtain ⟨h1, p, h2, h3⟩ := hand_says hout rfl
      exact .inr ⟨o, p, h2, h1, .inl (by rw [h3])⟩
    | dropped => rw [hout] at hd; have hd : (s.dead || false) = true := hd; rw [hnd] at hd; cases hd
    | queued => rw [hout] at hd; have hd : (s.dead || false) = true := hd; rw [hnd] at hd; cases hd
    | ran => rw [hout] at hd; have hd : (s.dead || false) = true := hd; rw [hnd] at hd; cases hd
  | tell =>
    simp only [live, Watch.tell] at hs
    split at hs
    case h_1 => cases hs
    case h_2 w hw =>
    split at hs
    case h_1 htodo => cases hs; have hd : s.dead = true := hd; rw [hnd] at hd; cases hd
    case h_2 o rest htodo =>
    cases hs
    rw [hand_eq] at hd
    have hd : (s.dead || outcome c s w.on o == .killed) = true := hd
    rw [hnd, Bool.false_or, beq_iff_eq] at hd
    obtain ⟨h1, p, h2, h3⟩ := hand_says hd rfl
    exact .inr ⟨o, p, h2, h1, .inr ⟨rfl, w, rest, hw, htodo, h3⟩⟩
  | register o =>
    simp only [live, register] at hs
    split at hs
    · cases hs; have hd : s.dead = true := hd; rw [hnd] at hd; cases hd
    · cases hs
  | unregister o =>
    simp only [live] at hs
    split at hs
    · cases hs; have hd : s.dead = true := hd; rw [hnd] at hd; cases hd
    · cases hs
  | change x y =>
    simp only [live] at hs; cases hs
    unfold change at hd
    split at hd
    · rw [hnd] at hd; cases hd
    · have hd : s.dead = true := hd; rw [hnd] at hd; cases hd
  | lock i on =>
    simp only [live, Watch.lock] at hs
    split at hs
    · cases hs; have hd : s.dead = true := hd; rw [hnd] at hd; cases hd
    · cases hs
  | run p =>
    simp only [live, Watch.run] at hs
    split at hs
    · cases hs
    · split at hs
      · cases hs
      · cases hs; have hd : s.dead = true := hd; rw [hnd] at hd; cases hd
  | stop p => simp only [live] at hs; cases hs; have hd : s.dead = true := hd; rw [hnd] at hd; cases hd
  | reuse p => simp only [live] at hs; cases hs; have hd : s.dead = true := hd; rw [hnd] at hd; cases hd
  | drop p => simp only [live] at hs; cases hs; have hd : s.dead = true := hd; rw [hnd] at hd; cases hd

/-! ### Examples and refutations

Callbacks 1 (asynchronous, processor 1), 2 (direct), 3 (default, processor 1), 8 (direct, throws), 9 (default, throws). -/

def ex : Conf := ⟨fun o => if o = 1 then .async 1 else if o = 3 ∨ o = 9 then .dflt 1 else .direct, fun o => o == 8 || o == 9⟩

def view (l : List Ev) : List (Nat × Avail × Avail) :=
  l.filterMap fun
    | .called o x y _ => some (o, x, y)
    | _ => none

/-- a change is told to all -/
example : (runs ex init [.register 1, .register 2, .register 3, .change .unknown .available, .lock 0 none, .tell, .tell, .tell, .tell, .run 1, .change .available .unavailable, .lock 0 none, .tell, .tell, .tell, .tell,
      .run 1, .run 1, .run 1]).map (fun s => (view s.log, s.listed)) =
    some ([(2, .unknown, .available), (1, .unknown, .available), (2, .available, .unavailable), (3, .unknown, .available), (1, .available, .unavailable), (3, .available, .unavailable)], [1, 2, 3]) := by
  decide +kernel

/-- the hypotheses of `told_all` are met -/
example : (runs ex init [.register 1, .register 2, .change .unknown .available, .lock 0 none, .tell, .tell, .tell]).map (·.log) =
    some ([.registered 1 .unknown, .registered 2 .unknown, .changed .unknown .available] ++ .locked .unknown .available [1, 2] ::
      ([.told 1 .unknown .available, .told 2 .unknown .available, .called 2 .unknown .available none] ++ .unlocked :: [])) := by decide +kernel

/-- a processor that is let go is noticed, and only its callback is removed -/
example : (runs ex init [.register 1, .register 2, .drop 1, .change .unknown .available, .lock 0 none, .tell, .tell, .tell]).map (fun s => (view s.log, s.listed, s.dead)) =
    some ([(2, .unknown, .available)], [2], false) := by decide +kernel

/-- **C97, refuted.** While its processor is stopped, a callback's changes are lost, though it stays registered; when the processor goes on, the callback's last word is
`available`, and the service is not. -/
theorem lost_when_stopped : (runs ex init [.register 1, .change .unknown .available, .lock 0 none, .tell, .tell, .run 1, .stop 1, .change .available .unavailable, .lock 0 none, .tell, .tell, .reuse 1]).map
      (fun s => (view s.log, s.queue 1, s.listed, s.status)) =
    some ([(1, .unknown, .available)], [], [1], .unavailable) := by decide +kernel

/-- **C97, refuted.** If the processor of the proxy is gone, registering while the service is available ends the program. -/
theorem greeting_ends_program : (runs ex init [.drop 1, .change .unknown .available, .register 1, .greet 1 none]).map (fun s => (s.dead, view s.log)) = some (true, []) ∧
    (runs ex init [.change .unknown .available, .register 8, .greet 8 none]).map (fun s => (s.dead, view s.log)) = some (true, [(8, .unknown, .available)]) := by decide +kernel

/-- **C97, refuted.** A callback that has thrown once on the direct executor is not called again. -/
theorem removed_for_throwing : (runs ex init [.register 8, .change .unknown .available, .lock 0 none, .tell, .tell, .change .available .unavailable, .lock 0 none, .tell]).map (fun s => (view s.log, s.listed, s.dead)) =
    some ([(8, .unknown, .available)], [], false) := by decide +kernel

/-- **C97, refuted.** A callback may be called after it was unregistered. -/
theorem called_after_unregister : (runs ex init [.register 1, .change .unknown .available, .lock 0 none, .tell, .tell, .unregister 1, .run 1]).map (·.log.drop 4) =
    some [.unlocked, .unregistered 1, .called 1 .unknown .available (some 1)] := by decide +kernel

/-- **C97, refuted.** A default executor's callback may hear of a change on its own thread (`deinit` of the client, called there) before one that is still in the queue. -/
theorem default_overtakes : (runs ex init [.register 3, .change .unknown .available, .lock 0 none, .tell, .tell, .change .available .unavailable, .lock 0 (some 1), .tell, .tell, .run 1]).map (fun s => view s.log) =
    some [(3, .available, .unavailable), (3, .unknown, .available)] := by decide +kernel

/-- **C97, refuted.** A callback of a default executor that throws on its own thread ends the program. -/
theorem throwing_ends_program : (runs ex init [.register 9, .change .unknown .available, .lock 0 (some 1), .tell]).map (fun s => s.dead) = some true := by decide +kernel

/-- **C97, refuted.** The greeting may come after a later change: the callback's last word is `available`. -/
theorem stale_greeting : (runs ex init [.change .unknown .available, .lock 0 none, .tell, .register 2, .change .available .unavailable, .lock 0 none, .tell, .tell, .greet 2 none]).map (fun s => (view s.log, s.status)) =
    some ([(2, .available, .unavailable), (2, .unknown, .available)], .unavailable) := by decide +kernel

end Maf.Watch
