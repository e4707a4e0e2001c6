import Verif.Model.StatusCallback
import Verif.Lemmas.Hist

/-! Histories of status callbacks. -/

namespace Maf.Watch

theorem upd_same {α : Type} (f : Nat → α) (i : Nat) (a : α) : upd f i a i = a := by unfold upd; rw [if_pos rfl]
theorem upd_ne {α : Type} (f : Nat → α) {i j : Nat} (a : α) (h : j ≠ i) : upd f i a j = f j := by unfold upd; rw [if_neg h]

/-! ### What a history says -/

def listStep (l : List Nat) : Ev → List Nat
  | .registered o _ => l ++ [o]
  | .unregistered o => l.erase o
  | .removed o => l.erase o
  | _ => l

/-- who is in the list -/
def listedIn (log : List Ev) : List Nat := log.foldl listStep []

def phaseStep (ph : Option (Avail × Avail × List Nat)) : Ev → Option (Avail × Avail × List Nat)
  | .locked x y l => some (x, y, l)
  | .unlocked => none
  | .told _ _ _ => ph.map fun (x, y, l) => (x, y, l.tail)
  | _ => ph

/-- the change that is being told, and who is still to be told -/
def phase (log : List Ev) : Option (Avail × Avail × List Nat) := log.foldl phaseStep none

/-- what was given to the executor of `o` -/
def handedIn (o : Nat) (log : List Ev) : List (Avail × Avail) :=
  log.filterMap fun
    | .told o' x y => if o' = o then some (x, y) else none
    | .greeted o' => if o' = o then some (.unknown, .available) else none
    | _ => none

/-- what callback `o` was called with -/
def calledIn (o : Nat) (log : List Ev) : List (Avail × Avail) :=
  log.filterMap fun
    | .called o' x y _ => if o' = o then some (x, y) else none
    | _ => none

def changedIn (log : List Ev) : List (Avail × Avail) :=
  log.filterMap fun
    | .changed x y => some (x, y)
    | _ => none

def lockedIn (log : List Ev) : List (Avail × Avail) :=
  log.filterMap fun
    | .locked x y _ => some (x, y)
    | _ => none

/-- the processor of callback `o`'s executor was stopped or let go -/
def halted (c : Conf) (o : Nat) (log : List Ev) : Prop := c.exec o ≠ .direct ∧ (.stopped (proc c o) ∈ log ∨ .gone (proc c o) ∈ log)

/-- the executor of `o` may refuse -/
def mayRefuse (c : Conf) (log : List Ev) (o : Nat) : Prop :=
  (c.exec o = .direct ∧ c.throws o = true) ∨ (c.exec o ≠ .direct ∧ .gone (proc c o) ∈ log)

theorem listedIn_snoc (l : List Ev) (e : Ev) : listedIn (l ++ [e]) = listStep (listedIn l) e := by
  unfold listedIn; rw [List.foldl_append]; rfl

theorem phase_snoc (l : List Ev) (e : Ev) : phase (l ++ [e]) = phaseStep (phase l) e := by
  unfold phase; rw [List.foldl_append]; rfl

/-! ### Handing over -/

def handEv (out : Out) (on : Option Nat) (o : Nat) (x y : Avail) : List Ev :=
  match out with
  | .ran => [.called o x y on]
  | .caught => [.called o x y on]
  | .killed => [.called o x y on, .terminated]
  | _ => []

def handQ (c : Conf) (s : State) (out : Out) (o : Nat) (x y : Avail) : Nat → List Task :=
  match out with
  | .queued => upd s.queue (proc c o) (s.queue (proc c o) ++ [⟨o, x, y⟩])
  | _ => s.queue

theorem hand_eq (c : Conf) (s : State) (on : Option Nat) (o : Nat) (x y : Avail) :
    hand c s on o x y = { s with log := s.log ++ handEv (outcome c s on o) on o x y, queue := handQ c s (outcome c s on o) o x y, dead := s.dead || outcome c s on o == .killed } := by
  unfold hand handEv handQ
  have e' : (s.dead || true) = true := Bool.or_true _
  have k : ∀ o : Out, (o == .killed) = decide (o = .killed) := fun o => by cases o <;> rfl
  cases outcome c s on o <;> simp [State.note, e', k]

theorem outcome_note (c : Conf) (s : State) (es : List Ev) (on : Option Nat) (o : Nat) : outcome c (s.note es) on o = outcome c s on o := rfl

theorem listed_hand (l : List Ev) (out : Out) (on : Option Nat) (o : Nat) (x y : Avail) : listedIn (l ++ handEv out on o x y) = listedIn l := by
  unfold listedIn; rw [List.foldl_append]; cases out <;> rfl

theorem phase_hand (l : List Ev) (out : Out) (on : Option Nat) (o : Nat) (x y : Avail) : phase (l ++ handEv out on o x y) = phase l := by
  unfold phase; rw [List.foldl_append]; cases out <;> rfl

theorem handed_hand (o' : Nat) (out : Out) (on : Option Nat) (o : Nat) (x y : Avail) : handedIn o' (handEv out on o x y) = [] := by
  cases out <;> rfl

theorem changed_hand (out : Out) (on : Option Nat) (o : Nat) (x y : Avail) : changedIn (handEv out on o x y) = [] := by cases out <;> rfl
theorem locked_hand (out : Out) (on : Option Nat) (o : Nat) (x y : Avail) : lockedIn (handEv out on o x y) = [] := by cases out <;> rfl

theorem handedIn_append (o : Nat) (a b : List Ev) : handedIn o (a ++ b) = handedIn o a ++ handedIn o b := List.filterMap_append
theorem calledIn_append (o : Nat) (a b : List Ev) : calledIn o (a ++ b) = calledIn o a ++ calledIn o b := List.filterMap_append
theorem changedIn_append (a b : List Ev) : changedIn (a ++ b) = changedIn a ++ changedIn b := List.filterMap_append
theorem lockedIn_append (a b : List Ev) : lockedIn (a ++ b) = lockedIn a ++ lockedIn b := List.filterMap_append

theorem outcome_refuses {c : Conf} {s : State} {on : Option Nat} {o : Nat} (h : (outcome c s on o).says = false) :
    (c.exec o = .direct ∧ c.throws o = true) ∨ (c.exec o ≠ .direct ∧ s.alive (proc c o) = false) := by
  unfold outcome at h
  unfold proc
  cases he : c.exec o with
  | direct =>
    rw [he] at h
    dsimp only at h
    split at h
    · next ht => exact .inl ⟨rfl, ht⟩
    · cases h
  | async p =>
    rw [he] at h
    refine .inr ⟨by simp, ?_⟩
    have h : (onAsync s p).says = false := h
    unfold onAsync at h
    cases ha : s.alive p with
    | false => rfl
    | true => rw [ha, if_pos rfl] at h; split at h <;> cases h
  | dflt p =>
    rw [he] at h
    refine .inr ⟨by simp, ?_⟩
    have h : (onDflt c s p on o).says = false := h
    unfold onDflt at h
    cases ha : s.alive p with
    | false => rfl
    | true =>
      rw [ha, if_pos rfl] at h
      split at h
      · cases h
      · split at h
        · split at h <;> cases h
        · cases h

theorem outcome_queued {c : Conf} {s : State} {on : Option Nat} {o : Nat} (h : outcome c s on o = .queued) : c.exec o ≠ .direct := by
  intro he
  unfold outcome at h; rw [he] at h; dsimp only at h; split at h <;> cases h

theorem outcome_async {c : Conf} {s : State} {on : Option Nat} {o p : Nat} (he : c.exec o = .async p) :
    outcome c s on o = .refused ∨ outcome c s on o = .dropped ∨ outcome c s on o = .queued := by
  unfold outcome; rw [he]; dsimp only; unfold onAsync
  split
  · split
    · exact .inr (.inl rfl)
    · exact .inr (.inr rfl)
  · exact .inl rfl

theorem outcome_direct {c : Conf} {s : State} {on : Option Nat} {o : Nat} (he : c.exec o = .direct) : outcome c s on o = .ran ∨ outcome c s on o = .caught := by
  unfold outcome; rw [he]; dsimp only
  split
  · exact .inr rfl
  · exact .inl rfl

/-- nothing is lost unless the processor is gone or stopped -/
theorem outcome_lost {c : Conf} {s : State} {on : Option Nat} {o : Nat} (h : outcome c s on o = .refused ∨ outcome c s on o = .dropped) :
    c.exec o ≠ .direct ∧ (s.alive (proc c o) = false ∨ s.closed (proc c o) = true) := by
  unfold outcome at h
  unfold proc
  cases he : c.exec o with
  | direct => rw [he] at h; dsimp only at h; split at h <;> rcases h with h | h <;> cases h
  | async p =>
    rw [he] at h
    refine ⟨by simp, ?_⟩
    have h : onAsync s p = .refused ∨ onAsync s p = .dropped := h
    unfold onAsync at h
    cases ha : s.alive p with
    | false => exact .inl rfl
    | true =>
      rw [ha, if_pos rfl] at h
      cases hc : s.closed p with
      | true => exact .inr rfl
      | false => rw [hc] at h; simp at h
  | dflt p =>
    rw [he] at h
    refine ⟨by simp, ?_⟩
    have h : onDflt c s p on o = .refused ∨ onDflt c s p on o = .dropped := h
    unfold onDflt at h
    cases ha : s.alive p with
    | false => exact .inl rfl
    | true =>
      rw [ha, if_pos rfl] at h
      cases hc : s.closed p with
      | true => exact .inr rfl
      | false =>
        rw [hc, if_neg (by decide)] at h
        split at h
        · split at h <;> rcases h with h | h <;> cases h
        · rcases h with h | h <;> cases h

theorem outcome_on {c : Conf} {s : State} {on : Option Nat} {o : Nat} (hd : c.exec o ≠ .direct) (h : outcome c s on o = .ran ∨ outcome c s on o = .caught ∨ outcome c s on o = .killed) :
    on = some (proc c o) := by
  unfold outcome at h
  unfold proc
  cases he : c.exec o with
  | direct => exact absurd he hd
  | async p =>
    rw [he] at h
    have h : onAsync s p = .ran ∨ onAsync s p = .caught ∨ onAsync s p = .killed := h
    unfold onAsync at h
    split at h
    · split at h <;> simp at h
    · simp at h
  | dflt p =>
    rw [he] at h
    have h : onDflt c s p on o = .ran ∨ onDflt c s p on o = .caught ∨ onDflt c s p on o = .killed := h
    unfold onDflt at h
    split at h
    · split at h
      · simp at h
      · split at h
        · assumption
        · simp at h
    · simp at h

/-! ### The invariant -/

/-- the callbacks' side of the invariant -/
structure Served (c : Conf) (log : List Ev) (q : Nat → List Task) : Prop where
  queue : ∀ p t, t ∈ q p → proc c t.obs = p ∧ c.exec t.obs ≠ .direct
  once : ∀ o, ∃ lost, (calledIn o log ++ ((q (proc c o)).filterMap fun t => if t.obs = o then some (t.old, t.new) else none) ++ lost).Perm (handedIn o log) ∧ (¬ halted c o log → lost = [])
  order : ∀ o, (∀ p, c.exec o ≠ .dflt p) → (calledIn o log ++ ((q (proc c o)).filterMap fun t => if t.obs = o then some (t.old, t.new) else none)).Sublist (handedIn o log)

/-- what the history must be like when an event happens -/
def Rule (c : Conf) (l : List Ev) : Ev → Prop
  | .registered o a => (∀ b, .registered o b ∉ l) ∧ phase l = none
  | .locked _ _ ls => phase l = none ∧ ls = listedIn l
  | .unlocked => ∃ x y, phase l = some (x, y, [])
  | .told o x y => ∃ rest, phase l = some (x, y, o :: rest)
  | .removed o => mayRefuse c l o
  | .greeted o => .registered o .available ∈ l ∧ .greeted o ∉ l
  | .called o x y on => (x, y) ∈ handedIn o l ∧ (c.exec o ≠ .direct → on = some (proc c o))
  | _ => True

structure Inv (c : Conf) (s : State) : Prop where
  hist : Hist (Rule c) s.log
  listed : s.listed = listedIn s.log
  phase : phase s.log = s.walk.map fun w => (w.old, w.new, w.todo)
  waiting : (lockedIn s.log ++ s.waiting).Perm (changedIn s.log)
  greet : ∀ o, o ∈ s.greets ↔ .registered o .available ∈ s.log ∧ .greeted o ∉ s.log
  greet1 : s.greets.Nodup
  alive : ∀ p, s.alive p = false → .gone p ∈ s.log
  closed : ∀ p, s.closed p = true → .stopped p ∈ s.log
  served : Served c s.log s.queue

theorem inv_init (c : Conf) : Inv c init := by
  refine ⟨.nil, rfl, rfl, .nil, ?_, .nil, ?_, ?_, ⟨?_, fun o => ⟨[], .nil, fun _ => rfl⟩, fun o _ => .slnil⟩⟩
  · intro o; simp [init]
  · intro p h; cases h
  · intro p h; cases h
  · intro p t h; cases h

theorem used_iff (o : Nat) (l : List Ev) : used o l = false ↔ ∀ a, .registered o a ∉ l := by
  induction l with
  | nil => simp [used]
  | cons e l ih =>
    cases e <;> simp [used, ih]
    case registered o' a =>
      constructor
      · rintro ⟨h1, h2⟩ b; exact ⟨fun h => absurd h.symm h1, h2 b⟩
      · intro h
        refine ⟨fun e => ?_, fun b => (h b).2⟩
        exact (h a).1 e.symm rfl

theorem halted_mono {c : Conf} {o : Nat} {l : List Ev} (es : List Ev) (h : halted c o l) : halted c o (l ++ es) :=
  ⟨h.1, h.2.imp (fun h => List.mem_append.mpr (.inl h)) fun h => List.mem_append.mpr (.inl h)⟩

/-- events that change nothing for what is listed, told, called -/
def Ev.idle : Ev → Bool
  | .unregistered _ | .changed _ _ | .locked _ _ _ | .unlocked | .removed _ | .left _ | .stopped _ | .reused _ | .gone _ | .terminated | .registered _ _ => true
  | _ => false

theorem idle_handed (o : Nat) {es : List Ev} (h : ∀ e ∈ es, e.idle = true) : handedIn o es = [] := by
  unfold handedIn
  rw [List.filterMap_eq_nil_iff]
  intro e he
  have := h e he
  cases e <;> first | rfl | cases this

theorem idle_called (o : Nat) {es : List Ev} (h : ∀ e ∈ es, e.idle = true) : calledIn o es = [] := by
  unfold calledIn
  rw [List.filterMap_eq_nil_iff]
  intro e he
  have := h e he
  cases e <;> first | rfl | cases this

theorem Served.idle {c : Conf} {log : List Ev} {q : Nat → List Task} (h : Served c log q) {es : List Ev} (he : ∀ e ∈ es, e.idle = true) : Served c (log ++ es) q := by
  refine ⟨h.queue, fun o => ?_, fun o ho => ?_⟩
  · rw [calledIn_append, handedIn_append, idle_called o he, idle_handed o he, List.append_nil, List.append_nil]
    obtain ⟨lost, h1, h2⟩ := h.once o
    exact ⟨lost, h1, fun hn => h2 fun hh => hn (halted_mono es hh)⟩
  · rw [calledIn_append, handedIn_append, idle_called o he, idle_handed o he, List.append_nil, List.append_nil]
    exact h.order o ho

/-- a queue is emptied -/
theorem Served.clear {c : Conf} {log : List Ev} {q : Nat → List Task} (h : Served c log q) {p : Nat} {e : Ev} (he : e = .stopped p ∨ e = .gone p) :
    Served c (log ++ [e]) (upd q p []) := by
  have hid : ∀ e' ∈ [e], e'.idle = true := by rintro e' h'; rw [List.mem_singleton.mp h']; rcases he with rfl | rfl <;> rfl
  have h := h.idle hid
  refine ⟨?_, fun o => ?_, fun o ho => ?_⟩
  · intro p' t ht
    unfold upd at ht; split at ht
    · cases ht
    · exact h.queue p' t ht
  · obtain ⟨lost, h1, h2⟩ := h.once o
    by_cases e' : proc c o = p
    · rw [e', upd_same]
      rw [e'] at h1
      by_cases hd : c.exec o = .direct
      · have hq : (q p).filterMap (fun t => if t.obs = o then some (t.old, t.new) else none) = [] := by
          rw [List.filterMap_eq_nil_iff]
          intro t ht
          rw [if_neg]
          rintro rfl
          exact (h.queue p t ht).2 hd
        rw [hq] at h1
        exact ⟨lost, h1, h2⟩
      · refine ⟨(q p).filterMap (fun t => if t.obs = o then some (t.old, t.new) else none) ++ lost, ?_, fun hn => absurd ⟨hd, ?_⟩ hn⟩
        · simpa using h1
        · rw [e']; rcases he with rfl | rfl <;> simp
    · rw [upd_ne _ _ e']; exact ⟨lost, h1, h2⟩
  · refine List.Sublist.trans ?_ (h.order o ho)
    refine List.Sublist.append_left ?_ _
    unfold upd; split
    · exact List.nil_sublist _
    · exact List.Sublist.refl _

/-- a task is run -/
theorem Served.run {c : Conf} {log : List Ev} {q : Nat → List Task} (h : Served c log q) {p : Nat} {t : Task} {rest : List Task} (hq : q p = t :: rest) :
    Served c (log ++ [.called t.obs t.old t.new (some p)]) (upd q p rest) := by
  obtain ⟨hp, hd⟩ := h.queue p t (by rw [hq]; exact List.mem_cons_self ..)
  have hh : ∀ o, handedIn o (log ++ [.called t.obs t.old t.new (some p)]) = handedIn o log := fun o => by
    rw [handedIn_append]; exact List.append_nil _
  have hsame : ∀ o, calledIn o (log ++ [.called t.obs t.old t.new (some p)]) ++ ((upd q p rest (proc c o)).filterMap fun t => if t.obs = o then some (t.old, t.new) else none) =
      calledIn o log ++ ((q (proc c o)).filterMap fun t => if t.obs = o then some (t.old, t.new) else none) := by
    intro o
    rw [calledIn_append]
    by_cases e : t.obs = o
    · subst e
      rw [hp, upd_same, hq, List.filterMap_cons, if_pos rfl]
      have : calledIn t.obs [.called t.obs t.old t.new (some p)] = [(t.old, t.new)] := by unfold calledIn; simp
      rw [this]; simp
    · have : calledIn o [.called t.obs t.old t.new (some p)] = [] := by unfold calledIn; simp [e]
      rw [this, List.append_nil]
      congr 1
      unfold upd; split
      · next e' => rw [e', hq, List.filterMap_cons, if_neg e]
      · rfl
  refine ⟨?_, fun o => ?_, fun o ho => ?_⟩
  · intro p' t' ht
    unfold upd at ht; split at ht
    · next e => subst e; exact h.queue p' t' (by rw [hq]; exact List.mem_cons_of_mem _ ht)
    · exact h.queue p' t' ht
  · rw [hh, hsame]
    obtain ⟨lost, h1, h2⟩ := h.once o
    exact ⟨lost, h1, fun hn => h2 fun hx => hn (halted_mono _ hx)⟩
  · rw [hh, hsame]; exact h.order o ho

/-- a status is given to an executor -/
theorem Served.hand {c : Conf} {s : State} (h : Served c s.log s.queue) (ha : ∀ p, s.alive p = false → .gone p ∈ s.log) (hc : ∀ p, s.closed p = true → .stopped p ∈ s.log)
    {e : Ev} {o : Nat} {x y : Avail} (he : ∀ o', handedIn o' [e] = if o' = o then [(x, y)] else []) (he' : ∀ o', calledIn o' [e] = []) (on : Option Nat) :
    Served c (s.log ++ [e] ++ handEv (outcome c s on o) on o x y) (handQ c s (outcome c s on o) o x y) := by
  have h1 : ∀ o', handedIn o' (s.log ++ [e] ++ handEv (outcome c s on o) on o x y) = handedIn o' s.log ++ if o' = o then [(x, y)] else [] := fun o' => by
    rw [handedIn_append, handedIn_append, handed_hand, he, List.append_nil]
  have h2 : ∀ o', calledIn o' (s.log ++ [e] ++ handEv (outcome c s on o) on o x y) = calledIn o' s.log ++ calledIn o' (handEv (outcome c s on o) on o x y) := fun o' => by
    rw [calledIn_append, calledIn_append, he', List.append_nil]
  have hmono : ∀ o', halted c o' s.log → halted c o' (s.log ++ [e] ++ handEv (outcome c s on o) on o x y) := fun o' hh => halted_mono _ (halted_mono _ hh)
  -- the three kinds of outcome
  have kinds : (handEv (outcome c s on o) on o x y = [] ∧ handQ c s (outcome c s on o) o x y = s.queue ∧ halted c o s.log) ∨
      (handEv (outcome c s on o) on o x y = [] ∧ c.exec o ≠ .direct ∧ handQ c s (outcome c s on o) o x y = upd s.queue (proc c o) (s.queue (proc c o) ++ [⟨o, x, y⟩])) ∨
      ((∀ o', calledIn o' (handEv (outcome c s on o) on o x y) = if o' = o then [(x, y)] else []) ∧ handQ c s (outcome c s on o) o x y = s.queue ∧
        (c.exec o = .direct ∨ ∃ p, c.exec o = .dflt p)) := by
    have hl : outcome c s on o = .refused ∨ outcome c s on o = .dropped → halted c o s.log := fun h => by
      obtain ⟨h1, h2⟩ := outcome_lost h
      exact ⟨h1, h2.elim (fun h => .inr (ha _ h)) fun h => .inl (hc _ h)⟩
    have hcall : ∀ out, (out = .ran ∨ out = .caught ∨ out = .killed) → ∀ o', calledIn o' (handEv out on o x y) = if o' = o then [(x, y)] else [] := by
      rintro out hout o'
      by_cases e : o' = o
      · subst e; rcases hout with rfl | rfl | rfl <;> simp [handEv, calledIn]
      · have e' : ¬ o = o' := fun h => e h.symm
        rcases hout with rfl | rfl | rfl <;> simp [handEv, calledIn, e, e']
    have hk : (outcome c s on o = .ran ∨ outcome c s on o = .caught ∨ outcome c s on o = .killed) → c.exec o = .direct ∨ ∃ p, c.exec o = .dflt p := by
      intro h
      cases hx : c.exec o with
      | direct => exact .inl rfl
      | async p => rcases outcome_async (s := s) (on := on) hx with h' | h' | h' <;> rw [h'] at h <;> simp at h
      | dflt p => exact .inr ⟨p, rfl⟩
    cases hout : outcome c s on o with
    | refused => exact .inl ⟨rfl, rfl, hl (.inl hout)⟩
    | dropped => exact .inl ⟨rfl, rfl, hl (.inr hout)⟩
    | queued => exact .inr (.inl ⟨rfl, outcome_queued hout, rfl⟩)
    | ran => exact .inr (.inr ⟨hcall _ (.inl rfl), rfl, hk (.inl hout)⟩)
    | caught => exact .inr (.inr ⟨hcall _ (.inr (.inl rfl)), rfl, hk (.inr (.inl hout))⟩)
    | killed => exact .inr (.inr ⟨hcall _ (.inr (.inr rfl)), rfl, hk (.inr (.inr hout))⟩)
  rcases kinds with ⟨k1, k2, k3⟩ | ⟨k1, k2, k3⟩ | ⟨k1, k2, k3⟩
  · -- lost
    refine ⟨by rw [k2]; exact h.queue, fun o' => ?_, fun o' ho' => ?_⟩
    · rw [h1, h2, k1, k2]
      obtain ⟨lost, g1, g2⟩ := h.once o'
      by_cases e : o' = o
      · subst e
        refine ⟨lost ++ [(x, y)], ?_, fun hn => absurd (hmono _ k3) (by rw [k1]; exact hn)⟩
        rw [if_pos rfl, ← List.append_assoc]
        exact List.Perm.append_right _ (by simpa [calledIn] using g1)
      · rw [if_neg e]
        refine ⟨lost, by simpa [calledIn] using g1, fun hn => g2 fun hx => hn (by have := hmono _ hx; rw [k1] at this; exact this)⟩
    · rw [h1, h2, k1, k2]
      refine List.Sublist.trans ?_ (List.sublist_append_left _ _)
      simpa [calledIn] using h.order o' ho'
  · -- queued
    have hq : ∀ o', ((upd s.queue (proc c o) (s.queue (proc c o) ++ [⟨o, x, y⟩]) (proc c o')).filterMap fun t => if t.obs = o' then some (t.old, t.new) else none) =
        ((s.queue (proc c o')).filterMap fun t => if t.obs = o' then some (t.old, t.new) else none) ++ if o' = o then [(x, y)] else [] := by
      intro o'
      by_cases e : o' = o
      · subst e; rw [upd_same, List.filterMap_append, if_pos rfl]; simp
      · rw [if_neg e, List.append_nil]
        have e' : ¬ o = o' := fun h => e h.symm
        unfold upd; split
        · next e2 => rw [List.filterMap_append, e2]; simp [e']
        · rfl
    refine ⟨?_, fun o' => ?_, fun o' ho' => ?_⟩
    · rw [k3]
      intro p t ht
      unfold upd at ht; split at ht
      · next e =>
        rcases List.mem_append.mp ht with ht | ht
        · exact e ▸ h.queue _ t ht
        · rw [List.mem_singleton.mp ht]; exact ⟨e.symm, k2⟩
      · exact h.queue p t ht
    · rw [h1, h2, k1, k3, hq]
      obtain ⟨lost, g1, g2⟩ := h.once o'
      refine ⟨lost, ?_, fun hn => g2 fun hx => hn (by have := hmono _ hx; rw [k1] at this; exact this)⟩
      have e0 : calledIn o' [] = [] := rfl
      rw [e0, List.append_nil]
      refine List.Perm.trans ?_ (List.Perm.append_right _ g1)
      rw [List.append_assoc, List.append_assoc, List.append_assoc, List.append_assoc]
      exact List.Perm.append_left _ (List.Perm.append_left _ List.perm_append_comm)
    · rw [h1, h2, k1, k3, hq]
      have e0 : calledIn o' [] = [] := rfl
      rw [e0, List.append_nil, ← List.append_assoc]
      exact List.Sublist.append (h.order o' ho') (List.Sublist.refl _)
  · -- run at once
    refine ⟨by rw [k2]; exact h.queue, fun o' => ?_, fun o' ho' => ?_⟩
    · rw [h1, h2, k1, k2]
      obtain ⟨lost, g1, g2⟩ := h.once o'
      refine ⟨lost, ?_, fun hn => g2 fun hx => hn (hmono _ hx)⟩
      refine List.Perm.trans ?_ (List.Perm.append_right _ g1)
      simp only [List.append_assoc]
      refine List.Perm.append_left _ ?_
      refine List.perm_append_comm.trans ?_
      rw [List.append_assoc]
    · rw [h1, h2, k1, k2]
      by_cases e : o' = o
      · subst e
        have hd : c.exec o' = .direct := k3.resolve_right fun ⟨p, hp⟩ => ho' p hp
        have hq : (s.queue (proc c o')).filterMap (fun t => if t.obs = o' then some (t.old, t.new) else none) = [] := by
          rw [List.filterMap_eq_nil_iff]
          intro t ht
          rw [if_neg]
          rintro rfl
          exact (h.queue _ t ht).2 hd
        have := h.order o' ho'
        rw [hq, List.append_nil] at this ⊢
        exact List.Sublist.append this (List.Sublist.refl _)
      · rw [if_neg e, List.append_nil, List.append_nil]; exact h.order o' ho'

/-! ### Steps -/

theorem perm_erase {α : Type} {l : List α} {i : Nat} {a : α} (h : l[i]? = some a) : (a :: l.eraseIdx i).Perm l := by
  induction l generalizing i with
  | nil => cases h
  | cons b l ih =>
    cases i with
    | zero => cases h; exact .refl _
    | succ i => exact (List.Perm.swap b a _).trans (List.Perm.cons b (ih h))

/-- after a status is given to the executor: the requester's side -/
theorem told_side {c : Conf} {s : State} (hI : Inv c s) (es : List Ev) (h1 : ∀ l, listedIn (l ++ es) = listedIn l) (h2 : changedIn es = []) (h3 : lockedIn es = []) :
    s.listed = listedIn (s.log ++ es) ∧ (lockedIn (s.log ++ es) ++ s.waiting).Perm (changedIn (s.log ++ es)) := by
  rw [h1, changedIn_append, lockedIn_append, h2, h3, List.append_nil, List.append_nil]
  exact ⟨hI.listed, hI.waiting⟩

theorem mem_more {l : List Ev} {e : Ev} (es : List Ev) (h : e ∈ l) : e ∈ l ++ es := List.mem_append.mpr (.inl h)

theorem greet_more {s : State} {es : List Ev} {g : List Nat} (h : ∀ o, o ∈ g ↔ .registered o .available ∈ s.log ∧ .greeted o ∉ s.log)
    (he : ∀ o, .registered o .available ∉ es ∧ .greeted o ∉ es) (o : Nat) : o ∈ g ↔ .registered o .available ∈ s.log ++ es ∧ .greeted o ∉ s.log ++ es := by
  rw [h o]; simp only [List.mem_append, not_or]
  have := he o
  constructor
  · rintro ⟨a, b⟩; exact ⟨.inl a, b, this.2⟩
  · rintro ⟨a | a, b, -⟩
    · exact ⟨a, b⟩
    · exact absurd a this.1

theorem handEv_no (out : Out) (on : Option Nat) (o : Nat) (x y : Avail) {e : Ev} (h : e ∈ handEv out on o x y) : e = .terminated ∨ e = .called o x y on := by
  cases out <;> simp [handEv] at h
  · exact .inr h
  · exact .inr h
  · exact h.symm

theorem hand_hist {c : Conf} {s : State} {e : Ev} {o : Nat} {x y : Avail} (h : Hist (Rule c) (s.log ++ [e])) (he : (x, y) ∈ handedIn o (s.log ++ [e])) (on : Option Nat) :
    Hist (Rule c) (s.log ++ [e] ++ handEv (outcome c s on o) on o x y) := by
  have call : (outcome c s on o = .ran ∨ outcome c s on o = .caught ∨ outcome c s on o = .killed) → Rule c (s.log ++ [e]) (.called o x y on) := fun ho => ⟨he, fun hd => outcome_on hd ho⟩
  cases hout : outcome c s on o with
  | refused => exact (List.append_nil (s.log ++ [e])).symm ▸ h
  | dropped => exact (List.append_nil (s.log ++ [e])).symm ▸ h
  | queued => exact (List.append_nil (s.log ++ [e])).symm ▸ h
  | ran => exact h.one (call (.inl hout))
  | caught => exact h.one (call (.inr (.inl hout)))
  | killed => exact h.two (call (.inr (.inr hout))) trivial

theorem step_live {c : Conf} {s t : State} {a : Act} (h : step c s a = some t) : live c s a = some t := by
  unfold step at h; split at h
  · cases h
  · exact h

theorem inv_step {c : Conf} {s t : State} {a : Act} (hI : Inv c s) (hs : step c s a = some t) : Inv c t := by
  have hs := step_live hs
  have gone_more : ∀ {es : List Ev} p, s.alive p = false → .gone p ∈ s.log ++ es := fun p h => mem_more _ (hI.alive p h)
  have closed_more : ∀ {es : List Ev} p, s.closed p = true → .stopped p ∈ s.log ++ es := fun p h => mem_more _ (hI.closed p h)
  cases a with
  | register o =>
    simp only [live, register] at hs
    split at hs
    case isFalse => cases hs
    case isTrue hc =>
    cases hs
    obtain ⟨hw, hu⟩ := hc
    rw [used_iff] at hu
    have hph : Watch.phase s.log = none := by rw [hI.phase, hw]; rfl
    refine ⟨hI.hist.one ⟨hu, hph⟩, ?_, ?_, ?_, ?_, ?_, gone_more, closed_more, hI.served.idle (by simp [Ev.idle])⟩
    · show _ = listedIn (s.log ++ [_]); rw [listedIn_snoc, ← hI.listed]; rfl
    · show Watch.phase (s.log ++ [_]) = _; rw [phase_snoc, hI.phase]; rfl
    · show (lockedIn (s.log ++ [_]) ++ _).Perm (changedIn (s.log ++ [_]))
      rw [lockedIn_append, changedIn_append]
      exact (List.append_nil (lockedIn s.log)).symm ▸ (List.append_nil (changedIn s.log)).symm ▸ hI.waiting
    · intro o'
      show o' ∈ s.greeting o ↔ .registered o' .available ∈ s.log ++ [.registered o s.status] ∧ .greeted o' ∉ s.log ++ [.registered o s.status]
      have hno : .greeted o ∉ s.log := by
        intro hm
        obtain ⟨l, r, e⟩ := List.append_of_mem hm
        have := (hI.hist.all l _ r e).1
        exact hu _ (by rw [e]; exact List.mem_append.mpr (.inl this))
      unfold State.greeting
      by_cases hst : s.status = .available
      · rw [if_pos hst, List.mem_append, hI.greet o']
        simp only [List.mem_append, List.mem_singleton, hst]
        constructor
        · rintro (⟨h1, h2⟩ | rfl)
          · exact ⟨.inl h1, by simp [h2]⟩
          · exact ⟨.inr rfl, by simp [hno]⟩
        · rintro ⟨h1 | h1, h2⟩
          · exact .inl ⟨h1, fun h => h2 (.inl h)⟩
          · cases h1; exact .inr rfl
      · rw [if_neg hst, hI.greet o']
        simp only [List.mem_append, List.mem_singleton]
        constructor
        · rintro ⟨h1, h2⟩; exact ⟨.inl h1, by simp [h2]⟩
        · rintro ⟨h1 | h1, h2⟩
          · exact ⟨h1, fun h => h2 (.inl h)⟩
          · simp only [Ev.registered.injEq] at h1; exact absurd h1.2.symm hst
    · show (s.greeting o).Nodup
      unfold State.greeting
      split
      · rw [List.nodup_append]
        refine ⟨hI.greet1, by simp, ?_⟩
        rintro a ha b hb rfl
        rw [List.mem_singleton.mp hb] at ha
        exact hu _ ((hI.greet o).mp ha).1
      · exact hI.greet1
  | greet o on =>
    simp only [live, Watch.greet] at hs
    split at hs
    case isFalse => cases hs
    case isTrue hg =>
    cases hs
    obtain ⟨hr, hn⟩ := (hI.greet o).mp hg
    have hand : ∀ o', handedIn o' [.greeted o] = if o' = o then [(.unknown, .available)] else [] := by
      intro o'
      by_cases e : o' = o
      · subst e; simp [handedIn]
      · have e' : ¬ o = o' := fun h => e h.symm
        simp [handedIn, e, e']
    have hsv := Served.hand hI.served hI.alive hI.closed (e := .greeted o) (o := o) (x := .unknown) (y := .available) hand (fun _ => rfl) on
    have hh : Hist (Rule c) (s.log ++ [.greeted o]) := hI.hist.one ⟨hr, hn⟩
    have hh2 := hand_hist hh (o := o) (x := .unknown) (y := .available) (by rw [handedIn_append, hand, if_pos rfl]; simp) on
    rw [hand_eq]
    show Inv c (afterGreet { s with greets := s.greets.erase o, log := s.log ++ [.greeted o] ++ handEv (outcome c s on o) on o .unknown .available, queue := handQ c s (outcome c s on o) o .unknown .available, dead := _ } (outcome c s on o))
    generalize outcome c s on o = out at hsv hh2 ⊢
    have base : ∀ d, Inv c { s with greets := s.greets.erase o, log := s.log ++ [.greeted o] ++ handEv out on o .unknown .available, queue := handQ c s out o .unknown .available, dead := d } := by
      intro d
      obtain ⟨h1, h2⟩ := told_side hI ([.greeted o] ++ handEv out on o .unknown .available) (fun l => by rw [← List.append_assoc, listed_hand, listedIn_snoc]; rfl)
        (by rw [changedIn_append, changed_hand]; rfl) (by rw [lockedIn_append, locked_hand]; rfl)
      rw [← List.append_assoc] at h1 h2
      refine ⟨hh2, h1, ?_, h2, ?_, hI.greet1.erase o, ?_, ?_, hsv⟩
      · show Watch.phase (s.log ++ [.greeted o] ++ _) = _
        rw [phase_hand, phase_snoc]; exact hI.phase
      · intro o'
        show o' ∈ s.greets.erase o ↔ .registered o' .available ∈ s.log ++ [.greeted o] ++ handEv out on o .unknown .available ∧ .greeted o' ∉ s.log ++ [.greeted o] ++ handEv out on o .unknown .available
        rw [hI.greet1.mem_erase_iff, hI.greet o']
        have n1 : .registered o' .available ∉ handEv out on o .unknown .available := fun h => by rcases handEv_no _ _ _ _ _ h with h | h <;> cases h
        have n2 : .greeted o' ∉ handEv out on o .unknown .available := fun h => by rcases handEv_no _ _ _ _ _ h with h | h <;> cases h
        simp only [List.mem_append, List.mem_singleton, n1, n2, or_false, Ev.greeted.injEq, not_or]
        constructor
        · rintro ⟨h1, h2, h3⟩; exact ⟨.inl h2, h3, h1⟩
        · rintro ⟨h1 | h1, h2, h3⟩
          · exact ⟨h3, h1, h2⟩
          · cases h1
      · intro p hp; rw [List.append_assoc]; exact gone_more p hp
      · intro p hp; rw [List.append_assoc]; exact closed_more p hp
    have term : ∀ {u : State}, Inv c u → ∀ d, Inv c { u.note [.terminated] with dead := d } := by
      intro u hU d
      refine ⟨hU.hist.one trivial, ?_, ?_, ?_, fun o => greet_more hU.greet (by simp) o, hU.greet1, fun p h => mem_more _ (hU.alive p h), fun p h => mem_more _ (hU.closed p h), hU.served.idle (by simp [Ev.idle])⟩
      · show u.listed = listedIn (u.log ++ [_]); rw [listedIn_snoc]; exact hU.listed
      · show Watch.phase (u.log ++ [_]) = _; rw [phase_snoc]; exact hU.phase
      · show (lockedIn (u.log ++ [_]) ++ _).Perm (changedIn (u.log ++ [_]))
        rw [lockedIn_append, changedIn_append]
        exact (List.append_nil (lockedIn u.log)).symm ▸ (List.append_nil (changedIn u.log)).symm ▸ hU.waiting
    cases out with
    | refused => exact term (base _) _
    | caught => exact term (base _) _
    | dropped => exact base _
    | queued => exact base _
    | ran => exact base _
    | killed => exact base _
  | unregister o =>
    simp only [live] at hs
    split at hs
    case isFalse => cases hs
    case isTrue hw =>
    cases hs
    refine ⟨hI.hist.one trivial, ?_, ?_, ?_, fun o => greet_more hI.greet (by simp) o, hI.greet1, gone_more, closed_more, hI.served.idle (by simp [Ev.idle])⟩
    · show s.listed.erase o = listedIn (s.log ++ [_]); rw [listedIn_snoc, ← hI.listed]; rfl
    · show Watch.phase (s.log ++ [_]) = _; rw [phase_snoc]; exact hI.phase
    · show (lockedIn (s.log ++ [_]) ++ _).Perm (changedIn (s.log ++ [_]))
      rw [lockedIn_append, changedIn_append]
      exact (List.append_nil (lockedIn s.log)).symm ▸ (List.append_nil (changedIn s.log)).symm ▸ hI.waiting
  | change x y =>
    simp only [live, Watch.change] at hs
    cases hs
    split
    · exact hI
    · refine ⟨hI.hist.one trivial, ?_, ?_, ?_, fun o => greet_more hI.greet (by simp) o, hI.greet1, gone_more, closed_more, hI.served.idle (by simp [Ev.idle])⟩
      · show s.listed = listedIn (s.log ++ [_]); rw [listedIn_snoc]; exact hI.listed
      · show Watch.phase (s.log ++ [_]) = _; rw [phase_snoc]; exact hI.phase
      · show (lockedIn (s.log ++ [_]) ++ (s.waiting ++ [(x, y)])).Perm (changedIn (s.log ++ [_]))
        rw [lockedIn_append, changedIn_append]
        have : lockedIn [.changed x y] = [] := rfl
        rw [this, List.append_nil, ← List.append_assoc]
        exact List.Perm.append_right _ hI.waiting
  | lock i on =>
    simp only [live, Watch.lock] at hs
    split at hs
    case h_2 => cases hs
    case h_1 x y hw hi =>
    cases hs
    have hph : Watch.phase s.log = none := by rw [hI.phase, hw]; rfl
    refine ⟨hI.hist.one ⟨hph, hI.listed⟩, ?_, ?_, ?_, fun o => greet_more hI.greet (by simp) o, hI.greet1, gone_more, closed_more, hI.served.idle (by simp [Ev.idle])⟩
    · show s.listed = listedIn (s.log ++ [_]); rw [listedIn_snoc]; exact hI.listed
    · show Watch.phase (s.log ++ [_]) = _; rw [phase_snoc]; rfl
    · show (lockedIn (s.log ++ [_]) ++ s.waiting.eraseIdx i).Perm (changedIn (s.log ++ [_]))
      rw [lockedIn_append, changedIn_append]
      have e1 : lockedIn [.locked x y s.listed] = [(x, y)] := rfl
      have e2 : changedIn [.locked x y s.listed] = [] := rfl
      rw [e1, e2, List.append_nil, List.append_assoc]
      exact (List.Perm.append_left _ (perm_erase hi)).trans hI.waiting
  | tell =>
    simp only [live, Watch.tell] at hs
    split at hs
    case h_1 => cases hs
    case h_2 w hw =>
    split at hs
    case h_1 htodo =>
      cases hs
      refine ⟨hI.hist.one ⟨w.old, w.new, by rw [hI.phase, hw, Option.map_some, htodo]⟩, ?_, ?_, ?_, fun o => greet_more hI.greet (by simp) o, hI.greet1, gone_more, closed_more, hI.served.idle (by simp [Ev.idle])⟩
      · show s.listed = listedIn (s.log ++ [_]); rw [listedIn_snoc]; exact hI.listed
      · show Watch.phase (s.log ++ [_]) = _; rw [phase_snoc]; rfl
      · show (lockedIn (s.log ++ [_]) ++ _).Perm (changedIn (s.log ++ [_]))
        rw [lockedIn_append, changedIn_append]
        exact (List.append_nil (lockedIn s.log)).symm ▸ (List.append_nil (changedIn s.log)).symm ▸ hI.waiting
    case h_2 o rest htodo =>
      cases hs
      have hph : Watch.phase s.log = some (w.old, w.new, o :: rest) := by rw [hI.phase, hw, Option.map_some, htodo]
      have hand : ∀ o', handedIn o' [.told o w.old w.new] = if o' = o then [(w.old, w.new)] else [] := by
        intro o'
        by_cases e : o' = o
        · subst e; simp [handedIn]
        · have e' : ¬ o = o' := fun h => e h.symm
          simp [handedIn, e, e']
      have hsv := Served.hand hI.served hI.alive hI.closed (e := .told o w.old w.new) (o := o) (x := w.old) (y := w.new) hand (fun _ => rfl) w.on
      have hh : Hist (Rule c) (s.log ++ [.told o w.old w.new]) := hI.hist.one ⟨rest, hph⟩
      have hh2 := hand_hist hh (o := o) (x := w.old) (y := w.new) (by rw [handedIn_append, hand, if_pos rfl]; simp) w.on
      rw [hand_eq]
      show Inv c (afterTell { s with log := s.log ++ [.told o w.old w.new] ++ handEv (outcome c s w.on o) w.on o w.old w.new, queue := handQ c s (outcome c s w.on o) o w.old w.new, dead := _ } w o rest (outcome c s w.on o).says)
      have hmay : (outcome c s w.on o).says = false → mayRefuse c (s.log ++ [.told o w.old w.new] ++ handEv (outcome c s w.on o) w.on o w.old w.new) o := fun h =>
        (outcome_refuses h).imp id fun h => ⟨h.1, by rw [List.append_assoc]; exact gone_more _ h.2⟩
      generalize outcome c s w.on o = out at hsv hh2 hmay ⊢
      obtain ⟨h1, h2⟩ := told_side hI ([.told o w.old w.new] ++ handEv out w.on o w.old w.new) (fun l => by rw [← List.append_assoc, listed_hand, listedIn_snoc]; rfl)
        (by rw [changedIn_append, changed_hand]; rfl) (by rw [lockedIn_append, locked_hand]; rfl)
      rw [← List.append_assoc] at h1 h2
      have hg : ∀ o', o' ∈ s.greets ↔ .registered o' .available ∈ s.log ++ [.told o w.old w.new] ++ handEv out w.on o w.old w.new ∧ .greeted o' ∉ s.log ++ [.told o w.old w.new] ++ handEv out w.on o w.old w.new := by
        intro o'
        rw [List.append_assoc]
        refine greet_more hI.greet (fun o' => ⟨?_, ?_⟩) o'
        · rw [List.mem_append]; rintro (h | h)
          · simp at h
          · rcases handEv_no _ _ _ _ _ h with h | h <;> cases h
        · rw [List.mem_append]; rintro (h | h)
          · simp at h
          · rcases handEv_no _ _ _ _ _ h with h | h <;> cases h
      have hph2 : Watch.phase (s.log ++ [.told o w.old w.new] ++ handEv out w.on o w.old w.new) = some (w.old, w.new, rest) := by
        rw [phase_hand, phase_snoc, hph]; rfl
      generalize hL : s.log ++ [.told o w.old w.new] ++ handEv out w.on o w.old w.new = L at *
      have ha : ∀ p, s.alive p = false → .gone p ∈ L := fun p h => by rw [← hL, List.append_assoc]; exact gone_more p h
      have hc : ∀ p, s.closed p = true → .stopped p ∈ L := fun p h => by rw [← hL, List.append_assoc]; exact closed_more p h
      cases hsays : out.says with
      | true =>
        have e : ∀ u : State, afterTell u w o rest true = { u with walk := some { w with todo := rest } } := fun u => by
          unfold afterTell State.note; simp
        rw [e]
        exact ⟨hh2, h1, hph2, h2, hg, hI.greet1, ha, hc, hsv⟩
      | false =>
        have e : ∀ u : State, afterTell u w o rest false = { u with log := u.log ++ [.removed o], listed := u.listed.erase o, walk := some { w with todo := rest } } := fun u => by
          unfold afterTell State.note; simp
        rw [e]
        refine ⟨hh2.one (hmay hsays), ?_, ?_, ?_, ?_, hI.greet1, fun p h => mem_more _ (ha p h), fun p h => mem_more _ (hc p h), hsv.idle (by simp [Ev.idle])⟩
        · show s.listed.erase o = listedIn (L ++ [_]); rw [listedIn_snoc, ← h1]; rfl
        · show Watch.phase (L ++ [_]) = _; rw [phase_snoc]; exact hph2
        · show (lockedIn (L ++ [_]) ++ _).Perm (changedIn (L ++ [_]))
          rw [lockedIn_append, changedIn_append]
          exact (List.append_nil (lockedIn L)).symm ▸ (List.append_nil (changedIn L)).symm ▸ h2
        · intro o'
          refine (hg o').trans ?_
          simp
  | run p =>
    simp only [live, Watch.run] at hs
    split at hs
    case isTrue => cases hs
    case isFalse hcl =>
    split at hs
    case h_1 => cases hs
    case h_2 t rest hq =>
    cases hs
    have hsv := Served.run hI.served hq
    obtain ⟨hp, hd⟩ := hI.served.queue p t (by rw [hq]; exact List.mem_cons_self ..)
    have hin : (t.old, t.new) ∈ handedIn t.obs s.log := by
      obtain ⟨lost, h1, -⟩ := hI.served.once t.obs
      refine h1.subset ?_
      rw [hp, hq]; simp
    have hh : Hist (Rule c) (s.log ++ [.called t.obs t.old t.new (some p)]) := hI.hist.one ⟨hin, fun _ => by rw [hp]⟩
    have key : ∀ es, (es = [] ∨ es = [.left p]) → Inv c { s.note (.called t.obs t.old t.new (some p) :: es) with queue := upd s.queue p rest } := by
      intro es hes
      have hid : ∀ e ∈ es, e.idle = true := by rcases hes with rfl | rfl <;> simp [Ev.idle]
      have hl : s.log ++ (.called t.obs t.old t.new (some p) :: es) = s.log ++ [.called t.obs t.old t.new (some p)] ++ es := by simp
      refine ⟨?_, ?_, ?_, ?_, fun o => greet_more hI.greet ?_ o, hI.greet1, gone_more, closed_more, ?_⟩
      · show Hist _ (s.log ++ _)
        rw [hl]; rcases hes with rfl | rfl
        · rw [List.append_nil]; exact hh
        · exact hh.one trivial
      · show s.listed = listedIn (s.log ++ _)
        rw [hl]; rcases hes with rfl | rfl
        · rw [List.append_nil, listedIn_snoc]; exact hI.listed
        · rw [listedIn_snoc, listedIn_snoc]; exact hI.listed
      · show Watch.phase (s.log ++ _) = _
        rw [hl]; rcases hes with rfl | rfl
        · rw [List.append_nil, phase_snoc]; exact hI.phase
        · rw [phase_snoc, phase_snoc]; exact hI.phase
      · show (lockedIn (s.log ++ _) ++ _).Perm (changedIn (s.log ++ _))
        rw [lockedIn_append, changedIn_append]
        rcases hes with rfl | rfl <;> exact (List.append_nil (lockedIn s.log)).symm ▸ (List.append_nil (changedIn s.log)).symm ▸ hI.waiting
      · intro o; rcases hes with rfl | rfl <;> simp
      · show Served c (s.log ++ _) _
        rw [hl]; exact hsv.idle hid
    refine key _ ?_
    split
    · exact .inr rfl
    · exact .inl rfl
  | stop p =>
    simp only [live] at hs; cases hs
    refine ⟨hI.hist.one trivial, ?_, ?_, ?_, fun o => greet_more hI.greet (by simp) o, hI.greet1, gone_more, ?_, hI.served.clear (.inl rfl)⟩
    · show s.listed = listedIn (s.log ++ [_]); rw [listedIn_snoc]; exact hI.listed
    · show Watch.phase (s.log ++ [_]) = _; rw [phase_snoc]; exact hI.phase
    · show (lockedIn (s.log ++ [_]) ++ _).Perm (changedIn (s.log ++ [_]))
      rw [lockedIn_append, changedIn_append]
      exact (List.append_nil (lockedIn s.log)).symm ▸ (List.append_nil (changedIn s.log)).symm ▸ hI.waiting
    · intro q hq
      have hq : upd s.closed p true q = true := hq
      unfold upd at hq; split at hq
      · next e => subst e; show _ ∈ s.log ++ [_]; simp
      · exact closed_more q hq
  | reuse p =>
    simp only [live] at hs; cases hs
    refine ⟨hI.hist.one trivial, ?_, ?_, ?_, fun o => greet_more hI.greet (by simp) o, hI.greet1, gone_more, ?_, hI.served.idle (by simp [Ev.idle])⟩
    · show s.listed = listedIn (s.log ++ [_]); rw [listedIn_snoc]; exact hI.listed
    · show Watch.phase (s.log ++ [_]) = _; rw [phase_snoc]; exact hI.phase
    · show (lockedIn (s.log ++ [_]) ++ _).Perm (changedIn (s.log ++ [_]))
      rw [lockedIn_append, changedIn_append]
      exact (List.append_nil (lockedIn s.log)).symm ▸ (List.append_nil (changedIn s.log)).symm ▸ hI.waiting
    · intro q hq
      have hq : upd s.closed p false q = true := hq
      unfold upd at hq; split at hq
      · cases hq
      · exact closed_more q hq
  | drop p =>
    simp only [live] at hs; cases hs
    refine ⟨hI.hist.one trivial, ?_, ?_, ?_, fun o => greet_more hI.greet (by simp) o, hI.greet1, ?_, closed_more, hI.served.clear (.inr rfl)⟩
    · show s.listed = listedIn (s.log ++ [_]); rw [listedIn_snoc]; exact hI.listed
    · show Watch.phase (s.log ++ [_]) = _; rw [phase_snoc]; exact hI.phase
    · show (lockedIn (s.log ++ [_]) ++ _).Perm (changedIn (s.log ++ [_]))
      rw [lockedIn_append, changedIn_append]
      exact (List.append_nil (lockedIn s.log)).symm ▸ (List.append_nil (changedIn s.log)).symm ▸ hI.waiting
    · intro q hq
      have hq : upd s.alive p false q = false := hq
      unfold upd at hq; split at hq
      · next e => subst e; show _ ∈ s.log ++ [_]; simp
      · exact gone_more q hq

theorem reach_inv {c : Conf} {as : List Act} {s t : State} (hI : Inv c s) (hr : runs c s as = some t) : Inv c t := by
  induction as generalizing s with
  | nil => cases hr; exact hI
  | cons a as ih =>
    unfold runs at hr
    cases hs : step c s a with
    | none => rw [hs] at hr; cases hr
    | some u => rw [hs] at hr; exact ih (inv_step hI hs) hr

end Maf.Watch
