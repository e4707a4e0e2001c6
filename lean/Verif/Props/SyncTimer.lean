import Verif.Lemmas.SyncTimer
/-
C74: the timer whose `start` blocks the caller.
-/
namespace Maf.SyncT

/-- The log of some run of a timer constructed with mode `c0`. -/
def Log (c0 : Bool) (l : List Ev) : Prop := ∃ as s, run (init c0) as = some s ∧ s.log = l

theorem Log.ok {c0 : Bool} {l r : List Ev} {e : Ev} (h : Log c0 (l ++ e :: r)) : EvOk c0 l e := by
  obtain ⟨as, s, h1, h2⟩ := h
  exact (inv_run (inv_init c0) h1).hist.all l e r h2

/-- C74: not early. The callback is called at the earliest one interval after the `start`, and one interval after the call before. -/
theorem not_early {c0 : Bool} {l r : List Ev} {f t th d t0 : Nat} {cb : Bool} (h : Log c0 (l ++ .fired f t cb :: r)) (hb : .begun f th d t0 ∈ l) :
    t0 + d ≤ t ∧ ∀ t' b, .fired f t' b ∈ l → t' + d ≤ t := h.ok.2.2.1 th d t0 hb

/-- C74: a `start` calls the callback again only if the callback has returned and at that moment the timer was cyclic. -/
theorem again_if_cyclic {c0 : Bool} {l m r : List Ev} {f t t' : Nat} {b b' : Bool} (h : Log c0 (l ++ .fired f t b :: m ++ .fired f t' b' :: r)) :
    ∃ a c, m = a ++ .calledBack f :: c ∧ (∀ e ∈ a, e.about ≠ some f) ∧ cyclicIn c0 (l ++ .fired f t b :: a) = true :=
  h.ok.2.2.2.1 l t b m rfl

/-- C74: one-shot: a timer that is never made cyclic calls the callback at most once per `start`. -/
theorem one_shot {l r : List Ev} {f t : Nat} {b : Bool} (h : Log false (l ++ .fired f t b :: r)) (hc : .cyclicSet true ∉ l ++ .fired f t b :: r) : ∀ t' b', .fired f t' b' ∉ l ∧ .fired f t' b' ∉ r := by
  have key : ∀ l : List Ev, .cyclicSet true ∉ l → cyclicIn false l = false := by
    refine snoc_induct (fun _ => rfl) ?_
    intro l e ih hl
    rw [cyc_snoc]
    have := ih fun hx => hl (List.mem_append_left _ hx)
    cases e with
    | cyclicSet b => cases b with | true => exact absurd (by simp) hl | false => rfl
    | _ => exact this
  intro t' b'
  constructor
  · intro hm
    obtain ⟨x, y, rfl⟩ := List.append_of_mem hm
    have h' : Log false (x ++ .fired f t' b' :: y ++ .fired f t b :: r) := h
    obtain ⟨a, c, rfl, -, hx⟩ := again_if_cyclic h'
    rw [key _ (fun hm => hc (by simp at hm ⊢; rcases hm with hm | hm <;> simp [hm]))] at hx; cases hx
  · intro hm
    obtain ⟨x, y, rfl⟩ := List.append_of_mem hm
    have h' : Log false (l ++ .fired f t b :: x ++ .fired f t' b' :: y) := by simpa using h
    obtain ⟨a, c, rfl, -, hx⟩ := again_if_cyclic h'
    rw [key _ (fun hm => hc (by simp at hm ⊢; rcases hm with hm | hm <;> simp [hm]))] at hx; cases hx

/-- C74: `start` returns once, not while its callback is being called, and only if the timer was stopped, or after a callback at whose return the timer was not cyclic. -/
theorem start_returns {c0 : Bool} {l r : List Ev} {f t : Nat} (h : Log c0 (l ++ .returned f t :: r)) :
    (∀ u, .returned f u ∉ l) ∧ inCb f l = false ∧ (runningIn l = false ∨ ∃ l', l = l' ++ [.calledBack f] ∧ cyclicIn c0 l' = false) :=
  ⟨h.ok.1, h.ok.2.2.1, h.ok.2.2.2⟩

/-- C74 (part): silence after `stop`: after a stop, and before anybody starts the timer again, the callback is not called. -/
theorem stop_silences_partial {c0 : Bool} {l m r : List Ev} {th f t : Nat} {b : Bool} (h : Log c0 (l ++ .stopped th :: m ++ .fired f t b :: r)) : ∃ g, .entered g ∈ m := by
  refine Classical.byContradiction fun hno => ?_
  have : runningIn (l ++ .stopped th :: m) = false := by
    clear h
    revert hno
    refine snoc_induct (motive := fun m => (¬ ∃ g, Ev.entered g ∈ m) → runningIn (l ++ .stopped th :: m) = false) ?_ ?_ m
    · intro _; rw [runs_snoc]
    · intro m e ih hno
      have h1 := ih fun ⟨g, hg⟩ => hno ⟨g, List.mem_append_left _ hg⟩
      rw [show l ++ .stopped th :: (m ++ [e]) = (l ++ .stopped th :: m) ++ [e] by simp, runs_snoc]
      cases e with
      | entered g => exact absurd ⟨g, by simp⟩ hno
      | _ => first | exact h1 | rfl
  have hx := h.ok.1
  rw [this] at hx; cases hx

/-- C74: a stop by another thread waits for the callback: when it takes place, no callback is being called for a `start` of another thread. -/
theorem stop_waits {c0 : Bool} {l r : List Ev} {th f : Nat} (h : Log c0 (l ++ .stopped th :: r)) (hc : inCb f l = true) : ∃ d t, .begun f th d t ∈ l := h.ok f hc

/-- C74 (part): the callback given to `start` is what is called, as long as the mode of the timer does not change. -/
theorem callback_kept_partial {c0 : Bool} {l r : List Ev} {f t : Nat} {b : Bool} (h : Log c0 (l ++ .fired f t b :: r)) (hc : ∀ c, .cyclicSet c ∉ l) : b = true := by
  cases b with
  | true => rfl
  | false =>
    obtain ⟨l1, t', r', rfl, hx⟩ := h.ok.2.2.2.2.1 rfl
    have h' : Log c0 (l1 ++ .fired f t' true :: r' ++ .fired f t false :: r) := h
    obtain ⟨a, c, rfl, -, hy⟩ := again_if_cyclic h'
    have key : ∀ l : List Ev, (∀ c, .cyclicSet c ∉ l) → cyclicIn c0 l = c0 := by
      refine snoc_induct (fun _ => rfl) ?_
      intro l e ih hl
      rw [cyc_snoc]
      have := ih fun c hx => hl c (List.mem_append_left _ hx)
      cases e with
      | cyclicSet b => exact absurd (by simp) (hl b)
      | _ => exact this
    rw [key _ (fun c hm => hc c (by simp [hm]))] at hx
    rw [key _ (fun c' hm => hc c' (by simp at hm ⊢; rcases hm with hm | hm <;> simp [hm]))] at hy
    rw [hx] at hy; cases hy

/-- C74: a `start` that returns although nobody has stopped the timer, and no other `start` of it has returned in the meantime, has called its callback. -/
theorem fires {c0 : Bool} {a m r : List Ev} {f t : Nat} (h : Log c0 (a ++ .entered f :: m ++ .returned f t :: r)) (h1 : ∀ th, .stopped th ∉ m) (h2 : ∀ g u, .returned g u ∉ m) :
    ∃ t b, .fired f t b ∈ a ++ .entered f :: m := by
  obtain ⟨-, -, hx⟩ := start_returns h
  rcases hx with hx | ⟨l', hl, -⟩
  · exfalso
    have : runningIn (a ++ .entered f :: m) = true := by
      clear h hx
      revert h1 h2
      refine snoc_induct (motive := fun m => (∀ th, Ev.stopped th ∉ m) → (∀ g u, Ev.returned g u ∉ m) → runningIn (a ++ .entered f :: m) = true) ?_ ?_ m
      · intro _ _; rw [runs_snoc]
      · intro m e ih h1 h2
        have h3 := ih (fun th hm => h1 th (List.mem_append_left _ hm)) (fun g u hm => h2 g u (List.mem_append_left _ hm))
        rw [show a ++ .entered f :: (m ++ [e]) = (a ++ .entered f :: m) ++ [e] by simp, runs_snoc]
        cases e with
        | stopped th => exact absurd (by simp) (h1 th)
        | returned g u => exact absurd (by simp) (h2 g u)
        | _ => first | exact h3 | rfl
    rw [this] at hx; cases hx
  · have hcb : inCb f l' = true := by
      have h' : Log c0 (l' ++ .calledBack f :: .returned f t :: r) := by rw [hl] at h; simpa using h
      exact h'.ok
    have key : ∀ l : List Ev, inCb f l = true → ∃ t b, Ev.fired f t b ∈ l := by
      refine snoc_induct (fun h => by cases h) ?_
      intro l e ih he
      by_cases hx : ∃ t b, e = .fired f t b
      · obtain ⟨t, b, rfl⟩ := hx; exact ⟨t, b, by simp⟩
      · have : inCb f l = true := by
          cases e with
          | fired g u b =>
            have : g ≠ f := by rintro rfl; exact hx ⟨u, b, rfl⟩
            simpa [inCb, this] using he
          | calledBack g =>
            by_cases hg : g = f
            · subst hg; rw [inCb_back] at he; cases he
            · simpa [inCb, hg] using he
          | _ => simpa [inCb] using he
        obtain ⟨t, b, hm⟩ := ih this; exact ⟨t, b, List.mem_append_left _ hm⟩
    obtain ⟨t, b, hm⟩ := key l' hcb
    exact ⟨t, b, by rw [hl]; exact List.mem_append_left _ hm⟩

/-! ### What is not so -/

/-- A one-shot run of thread 1 from 0 to 5, and what `restart` does to it at time 3: nothing. -/
theorem restart_ignored : ∃ s, run (init false) [.start 1 5 false, .go 1 none, .go 1 none, .tick, .tick, .tick, .restart 2 (some 0), .go 1 none, .tick, .tick, .expire 0, .go 1 none] = some s ∧
    s.log = [.begun 0 1 5 0, .entered 0, .restarted, .fired 0 5 true] := ⟨_, rfl, rfl⟩

/-- Starting a timer that is running does not end the former run: thread 2 stops and starts it before thread 1 is awake; both wait on, and the callback is called for both. -/
theorem both_run : ∃ s, run (init true) [.start 1 5 false, .go 1 none, .go 1 none, .start 2 3 false, .go 2 none, .go 2 (some 0), .go 2 none, .go 1 none,
      .tick, .tick, .tick, .expire 1, .go 2 none, .ret 2, .tick, .tick, .expire 0, .go 1 none] = some s ∧
    s.log = [.begun 0 1 5 0, .entered 0, .begun 1 2 3 0, .stopped 2, .entered 1, .fired 1 3 true, .calledBack 1, .fired 0 5 true] := ⟨_, rfl, rfl⟩

/-- A one-shot timer with an executor that is made cyclic by its callback gives the executor an empty function. -/
theorem empty_called : ∃ s, run (init false) [.start 1 1 true, .go 1 none, .go 1 none, .tick, .expire 0, .go 1 none, .setCyclic 1 true, .ret 1, .tick, .expire 0, .go 1 none] = some s ∧
    s.log = [.begun 0 1 1 0, .entered 0, .fired 0 1 true, .cyclicSet true, .calledBack 0, .fired 0 2 false] := ⟨_, rfl, rfl⟩

/-- A cyclic timer that was started from its own callback cannot be stopped from outside: its wait keeps the mutex. -/
theorem nested_unstoppable : ∃ s, run (init true) [.start 1 1 false, .go 1 none, .go 1 none, .tick, .expire 0, .go 1 none, .start 1 1000 false, .go 1 none, .go 1 none, .go 1 none] = some s ∧
    (s.frame 1).pc = .asleep ∧ ∀ w, step s (.stop 2 w) = none := ⟨_, rfl, rfl, fun _ => rfl⟩

/-! ### A stop ends the `start` -/

/-- Threads use the timer one after the other: when one calls `start`, those of others have returned. -/
def Apart (l : List Ev) : Prop := ∀ a f th d t b, l = a ++ .begun f th d t :: b → ∀ g th' d' t', .begun g th' d' t' ∈ a → th' ≠ th → ∃ u, .returned g u ∈ a

theorem Apart.left {l r : List Ev} (h : Apart (l ++ r)) : Apart l := fun a f th d t b hl => h a f th d t (b ++ r) (by rw [hl]; simp)

structure Solo (s : State) : Prop where
  one : ∀ f g, f < s.next → g < s.next → (s.frame f).pc ≠ .gone → (s.frame g).pc ≠ .gone → (s.frame f).thr = (s.frame g).thr
  sleep : ∀ f, (s.frame f).pc = .asleep → s.running = true
  base : ∀ t a f r, s.stack t = a ++ f :: r → (s.frame f).nested = true → r ≠ []
  held : ∀ u, s.owner = some u → ∃ f, f < s.next ∧ (s.frame f).pc = .calling ∧ (s.frame f).thr = u

/-- Of the `start`s that have not returned, only the one on top may be somewhere else than in its callback. -/
theorem only_top {c0 : Bool} {s : State} (h : Inv c0 s) (ho : Solo s) {t f g : Nat} (htop : s.top t = some f) (hg : g < s.next) (hgf : g ≠ f) (hp : (s.frame g).pc ≠ .gone) : (s.frame g).pc = .calling := by
  obtain ⟨r, hr⟩ := top_cons htop
  have hf := h.alive t f (top_mem htop)
  have ht := ho.one g f hg hf.2 hp hf.1
  rw [h.thr t f (top_mem htop)] at ht
  have := h.inside g hg hp
  rw [ht, hr] at this; simp at this
  rcases this with hx | hx
  · exact absurd hx hgf
  · exact h.under t f r hr g hx

/-- Only one sleeps. -/
theorem one_sleeper {c0 : Bool} {s : State} (h : Inv c0 s) (ho : Solo s) {f g : Nat} (hf : (s.frame f).pc = .asleep) (hg : (s.frame g).pc = .asleep) : f = g := by
  have hfl := FrOk.lt h (f := f) (by rw [hf]; exact fun h => by cases h)
  have hgl := FrOk.lt h (f := g) (by rw [hg]; exact fun h => by cases h)
  have hin := h.inside f hfl (by rw [hf]; exact fun h => by cases h)
  cases hs : s.stack (s.frame f).thr with
  | nil => rw [hs] at hin; cases hin
  | cons x r =>
    have htop : s.top (s.frame f).thr = some x := by simp [State.top, hs]
    have h1 : f = x := Classical.byContradiction fun hx => by
      have := only_top h ho htop hfl hx (by rw [hf]; exact fun h => by cases h); rw [hf] at this; cases this
    have h2 : g = x := Classical.byContradiction fun hx => by
      have := only_top h ho htop hgl hx (by rw [hg]; exact fun h => by cases h); rw [hg] at this; cases this
    rw [h1, h2]

/-- A frame changes its place, not to sleep. -/
theorem Solo_pc {s : State} (ho : Solo s) {f : Nat} {p : Pc} (hg : (s.frame f).pc ≠ .gone) (hc : (s.frame f).pc ≠ .calling) (hp : p = .asleep → s.running = true) :
    Solo (s.setPc f p) := by
  have hne {g : Nat} (hg : g ≠ f) : (s.setPc f p).frame g = s.frame g := by simp [State.setPc, upd, hg]
  have hfe : (s.setPc f p).frame f = { s.frame f with pc := p } := by simp [State.setPc, upd]
  have hthr (g : Nat) : ((s.setPc f p).frame g).thr = (s.frame g).thr := by
    by_cases hx : g = f
    · subst hx; rw [hfe]
    · rw [hne hx]
  have hpc (g : Nat) (h : ((s.setPc f p).frame g).pc ≠ .gone) : (s.frame g).pc ≠ .gone := by
    by_cases hx : g = f
    · subst hx; exact hg
    · rw [hne hx] at h; exact h
  refine ⟨fun a b ha hb hpa hpb => ?_, fun a ha => ?_, fun t a g r hs hn => ?_, fun u hu => ?_⟩
  · rw [hthr, hthr]; exact ho.one a b ha hb (hpc a hpa) (hpc b hpb)
  · by_cases hx : a = f
    · subst hx; rw [hfe] at ha; exact hp ha
    · rw [hne hx] at ha; exact ho.sleep a ha
  · by_cases hx : g = f
    · subst hx; rw [hfe] at hn; exact ho.base t a g r hs hn
    · rw [hne hx] at hn; exact ho.base t a g r hs hn
  · obtain ⟨g, h1, h2, h3⟩ := ho.held u hu
    have hx : g ≠ f := by rintro rfl; exact hc h2
    exact ⟨g, h1, by rw [hne hx]; exact h2, by rw [hne hx]; exact h3⟩

theorem Solo_notify {s s' : State} {w : Option Nat} (ho : Solo s) (hs : s.notify w = some s') : Solo s' := by
  cases w with
  | none => simp only [State.notify] at hs; split at hs <;> cases hs; exact ho
  | some f =>
    simp only [State.notify] at hs; split at hs
    · rename_i hp; cases hs
      exact Solo_pc ho (by rw [hp]; exact fun h => by cases h) (by rw [hp]; exact fun h => by cases h) (fun h => by cases h)
    · cases hs

theorem Solo_stopNow {c0 : Bool} {s s' : State} {t : Nat} {w : Option Nat} (h : Inv c0 s) (ho : Solo s) (hs : s.stopNow t w = some s') : Solo s' := by
  unfold State.stopNow at hs
  split at hs
  · cases w with
    | none =>
      simp only [State.notify] at hs; split at hs <;> cases hs
      rename_i hno
      refine ⟨ho.one, fun f hf => ?_, ho.base, ho.held⟩
      exfalso
      have hf' : (s.frame f).pc = .asleep := hf
      have hlt := FrOk.lt h (f := f) (by rw [hf']; exact fun h => by cases h)
      apply hno
      rw [List.any_eq_true]
      exact ⟨f, List.mem_range.2 hlt, by simpa [State.note] using hf'⟩
    | some g =>
      simp only [State.notify] at hs; split at hs
      · rename_i hp; cases hs
        have hp' : (s.frame g).pc = .asleep := hp
        have h1 := Solo_pc (f := g) (p := .woken) ho (by rw [hp']; exact fun h => by cases h) (by rw [hp']; exact fun h => by cases h) (fun h => by cases h)
        refine ⟨h1.one, fun f hf => ?_, h1.base, h1.held⟩
        exfalso
        by_cases hx : f = g
        · subst hx; simp [State.setPc, upd] at hf
        · have hf' : (s.frame f).pc = .asleep := by simpa [State.setPc, upd, hx, State.note] using hf
          exact hx (one_sleeper h ho hf' hp')
      · cases hs
  · cases hs
    exact ⟨ho.one, ho.sleep, ho.base, ho.held⟩

/-- The mutex, after `f` of `t` gives up its level, is held by nobody, or by `t` in a callback. -/
theorem release_held {c0 : Bool} {s : State} (h : Inv c0 s) (ho : Solo s) {t f : Nat} (htop : s.top t = some f) {u : Nat} (hu : s.release t f = some u) :
    ∃ g, g < s.next ∧ g ≠ f ∧ (s.frame g).pc = .calling ∧ (s.frame g).thr = u := by
  unfold State.release at hu
  split at hu
  · rename_i hn; cases hu
    obtain ⟨r, hr⟩ := top_cons htop
    cases r with
    | nil => exact absurd rfl (ho.base t [] f [] hr hn)
    | cons g r =>
      have hm : g ∈ s.stack t := by rw [hr]; simp
      have hnd := h.nodup t; rw [hr] at hnd
      exact ⟨g, (h.alive t g hm).2, by rintro rfl; exact (List.nodup_cons.1 hnd).1 (by simp), h.under t f _ hr g (by simp), h.thr t g hm⟩
  · cases hu

/-- The top frame changes. -/
theorem Solo_frame {c0 : Bool} {s s' : State} (h : Inv c0 s) (ho : Solo s) {t f : Nat} {fr : Frame} {o : Option Nat} (htop : s.top t = some f)
    (h1 : fr.thr = (s.frame f).thr) (h2 : fr.nested = (s.frame f).nested) (hs : s'.frame = upd s.frame f fr) (hn : s'.next = s.next) (hsk : ∀ t', ∃ x, s.stack t' = x ++ s'.stack t') (hor : s'.owner = o)
    (hsl : s'.running = true ∨ fr.pc ≠ .asleep ∧ ∀ g, g ≠ f → (s.frame g).pc ≠ .asleep) (hh : ∀ u, o = some u → fr.pc = .calling ∧ fr.thr = u ∨ ∃ g, g < s.next ∧ g ≠ f ∧ (s.frame g).pc = .calling ∧ (s.frame g).thr = u) : Solo s' := by
  have hlt := (h.alive t f (top_mem htop))
  have hne {g : Nat} (hg : g ≠ f) : s'.frame g = s.frame g := by rw [hs]; simp [upd, hg]
  have hfe : s'.frame f = fr := by rw [hs]; simp [upd]
  have hthr (g : Nat) : (s'.frame g).thr = (s.frame g).thr := by
    by_cases hx : g = f
    · subst hx; rw [hfe, h1]
    · rw [hne hx]
  have hpc (g : Nat) (h : (s'.frame g).pc ≠ .gone) : (s.frame g).pc ≠ .gone := by
    by_cases hx : g = f
    · subst hx; exact hlt.1
    · rw [hne hx] at h; exact h
  refine ⟨fun a b ha hb hpa hpb => ?_, fun a ha => ?_, fun t' a g r hs' hnn => ?_, fun u hu => ?_⟩
  · rw [hthr, hthr]; rw [hn] at ha hb; exact ho.one a b ha hb (hpc a hpa) (hpc b hpb)
  · rcases hsl with hsl | ⟨hx, hy⟩
    · exact hsl
    · exfalso
      by_cases hz : a = f
      · subst hz; rw [hfe] at ha; exact hx ha
      · rw [hne hz] at ha; exact hy a hz ha
  · obtain ⟨x, hx⟩ := hsk t'
    rw [hs', ← List.append_assoc] at hx
    by_cases hz : g = f
    · subst hz; rw [hfe, h2] at hnn; exact ho.base t' _ g r hx hnn
    · rw [hne hz] at hnn; exact ho.base t' _ g r hx hnn
  · rw [hor] at hu
    rcases hh u hu with ⟨h3, h4⟩ | ⟨g, h3, h4, h5, h6⟩
    · exact ⟨f, by rw [hn]; exact hlt.2, by rw [hfe]; exact h3, by rw [hfe]; exact h4⟩
    · exact ⟨g, by rw [hn]; exact h3, by rw [hne h4]; exact h5, by rw [hne h4]; exact h6⟩

theorem Solo_leave {c0 : Bool} {s s' : State} (h : Inv c0 s) (ho : Solo s) {t f : Nat} (htop : s.top t = some f) (h1 : s'.frame = upd s.frame f { s.frame f with pc := .gone }) (h2 : s'.next = s.next)
    (h3 : s'.stack = upd s.stack t (s.stack t).tail) (h4 : s'.owner = s.release t f) : Solo s' := by
  refine Solo_frame h ho (fr := { s.frame f with pc := .gone }) htop rfl rfl h1 h2 (fun t' => ?_) h4 (.inr ⟨(fun h => by cases h), fun g hgf hx => ?_⟩) (fun u hu => .inr (release_held h ho htop hu))
  · rw [h3]
    by_cases ht : t' = t
    · subst ht; obtain ⟨r, hr⟩ := top_cons htop; exact ⟨[f], by simp [upd, hr]⟩
    · exact ⟨[], by simp [upd, ht]⟩
  · have hlt := FrOk.lt h (f := g) (by rw [hx]; exact fun h => by cases h)
    have := only_top h ho htop hlt hgf (by rw [hx]; exact fun h => by cases h)
    rw [hx] at this; cases this

theorem Solo_step {c0 : Bool} {s s' : State} (h : Inv c0 s) (ho : Solo s) {a : Act} (hs : step s a = some s') (hap : Apart s'.log) : Solo s' := by
  cases a with
  | start t d exec =>
    simp only [step] at hs; split at hs
    · rename_i hfree; cases hs
      have hne {g : Nat} {fr : Frame} (hg : g ≠ s.next) : upd s.frame s.next fr g = s.frame g := by simp [upd, hg]
      have hfe {fr : Frame} : upd s.frame s.next fr s.next = fr := by simp [upd]
      have hold {t' g : Nat} (hg : g ∈ s.stack t') : g ≠ s.next := by
        rintro rfl; exact Nat.lt_irrefl _ (h.alive t' _ hg).2
      have key : ∀ g, g < s.next → (s.frame g).pc ≠ .gone → (s.frame g).thr = t := by
        intro g hg hp
        refine Classical.byContradiction fun hx => ?_
        obtain ⟨u, hu⟩ := (h.old g hg).begun
        obtain ⟨v, hv⟩ := hap s.log s.next t d s.now [] rfl g _ _ u hu hx
        exact hp ((h.old g hg).back.2 ⟨v, hv⟩)
      have lt {g : Nat} (hg : g < s.next + 1) (hx : g ≠ s.next) : g < s.next := Nat.lt_of_le_of_ne (Nat.le_of_lt_succ hg) hx
      have hst (t' : Nat) : upd s.stack t (s.next :: s.stack t) t' = if t' = t then s.next :: s.stack t else s.stack t' := by simp [upd]
      refine ⟨fun f g hf hg hpf hpg => ?_, fun f hf => ?_, fun t' a g r hs' hn => ?_, fun u hu => ?_⟩
      · by_cases hx : f = s.next <;> by_cases hy : g = s.next
        · rw [hx, hy]
        · subst hx; simp only [hfe, hne hy] at hpg ⊢; exact (key g (lt hg hy) hpg).symm
        · subst hy; simp only [hfe, hne hx] at hpf ⊢; exact key f (lt hf hx) hpf
        · simp only [hne hx, hne hy] at hpf hpg ⊢; exact ho.one f g (lt hf hx) (lt hg hy) hpf hpg
      · by_cases hx : f = s.next
        · subst hx; simp only [hfe] at hf; cases hf
        · simp only [hne hx] at hf; exact ho.sleep f hf
      · have hs'' : upd s.stack t (s.next :: s.stack t) t' = a ++ g :: r := hs'
        rw [hst] at hs''; split at hs''
        · rename_i ht; subst ht
          cases a with
          | nil =>
            simp at hs''; obtain ⟨rfl, rfl⟩ := hs''
            simp only [hfe] at hn; simpa using hn
          | cons y a =>
            simp at hs''
            simp only [hne (hold (t' := t') (g := g) (by rw [hs''.2]; simp))] at hn
            exact ho.base t' a g r hs''.2 hn
        · simp only [hne (hold (t' := t') (g := g) (by rw [hs'']; simp))] at hn
          exact ho.base t' a g r hs'' hn
      · obtain ⟨g, h1, h2, h3⟩ := ho.held u hu
        have hx : g ≠ s.next := by rintro rfl; exact Nat.lt_irrefl _ h1
        exact ⟨g, Nat.lt_succ_of_lt h1, by simp only [hne hx]; exact h2, by simp only [hne hx]; exact h3⟩
    · cases hs
  | go t w =>
    simp only [step, Option.bind_eq_some_iff] at hs
    obtain ⟨f, htop, hs⟩ := hs
    have hoth (h' : (s.frame f).pc ≠ .asleep) : ∀ g, g ≠ f → (s.frame g).pc ≠ .asleep := fun g hgf hx => by
      have hlt := FrOk.lt h (f := g) (by rw [hx]; exact fun h => by cases h)
      have := only_top h ho htop hlt hgf (by rw [hx]; exact fun h => by cases h)
      rw [hx] at this; cases this
    unfold stepGo at hs
    split at hs
    · rename_i hp; cases hs
      refine Solo_pc ho (by rw [hp]; exact fun h => by cases h) (by rw [hp]; exact fun h => by cases h) (fun h => ?_)
      split at h <;> cases h
    · rename_i hp; split at hs
      · refine Solo_stopNow (inv_pc h (.inr (.inr ⟨by rw [hp]; rfl, .inr rfl⟩))) ?_ hs
        exact Solo_pc ho (by rw [hp]; exact fun h => by cases h) (by rw [hp]; exact fun h => by cases h) (fun h => by cases h)
      · cases hs
    · split at hs
      · cases hs
        exact Solo_frame h ho (fr := { s.frame f with pc := .asleep, deadline := s.now + (s.frame f).d }) htop rfl rfl rfl rfl (fun t' => ⟨[], rfl⟩) rfl (.inl rfl) (fun u hu => .inr (release_held h ho htop hu))
      · cases hs
    · rename_i hp; split at hs
      · split at hs
        · rename_i hr; cases hs
          exact Solo_pc (f := f) (p := .asleep) ho (by rw [hp]; exact fun h => by cases h) (by rw [hp]; exact fun h => by cases h) (fun _ => hr)
        · cases hs; exact Solo_leave h ho htop rfl rfl rfl rfl
      · cases hs
    · rename_i hp; split at hs
      · split at hs
        · cases hs
          exact Solo_frame h ho (fr := { s.frame f with pc := .calling, cb := (s.frame f).cb && (!(s.frame f).exec || s.cyclic) }) htop rfl rfl rfl rfl (fun t' => ⟨[], rfl⟩) rfl
            (.inr ⟨(fun h => by cases h), hoth (by rw [hp]; exact fun h => by cases h)⟩) (fun u hu => .inl ⟨rfl, by cases hu; exact h.thr t f (top_mem htop)⟩)
        · cases hs; exact Solo_leave h ho htop rfl rfl rfl rfl
      · cases hs
    · cases hs
  | ret t =>
    simp only [step, Option.bind_eq_some_iff] at hs
    obtain ⟨f, htop, hs⟩ := hs
    unfold stepRet at hs
    split at hs
    · rename_i hp; split at hs
      · rename_i hx; cases hs; simp at hx
        exact Solo_frame h ho (fr := { s.frame f with pc := .asleep, deadline := s.now + (s.frame f).d }) htop rfl rfl rfl rfl (fun t' => ⟨[], rfl⟩) rfl (.inl hx.1) (fun u hu => .inr (release_held h ho htop hu))
      · cases hs; exact Solo_leave h ho htop rfl rfl rfl rfl
    · cases hs
  | spurious f =>
    simp only [step] at hs; split at hs
    · rename_i hp; cases hs
      exact Solo_pc ho (by rw [hp]; exact fun h => by cases h) (by rw [hp]; exact fun h => by cases h) (fun h => by cases h)
    · cases hs
  | expire f =>
    simp only [step] at hs; split at hs
    · rename_i hp; cases hs
      exact Solo_pc ho (by rw [hp.1]; exact fun h => by cases h) (by rw [hp.1]; exact fun h => by cases h) (fun h => by cases h)
    · cases hs
  | stop t w =>
    simp only [step] at hs; split at hs
    · exact Solo_stopNow h ho hs
    · cases hs
  | restart t w =>
    simp only [step] at hs; split at hs
    · exact Solo_notify (s := s.note .restarted) ⟨ho.one, ho.sleep, ho.base, ho.held⟩ hs
    · cases hs
  | setCyclic t b =>
    simp only [step] at hs; split at hs
    · cases hs; exact ⟨ho.one, ho.sleep, ho.base, ho.held⟩
    · cases hs
  | tick => cases hs; exact ⟨ho.one, ho.sleep, ho.base, ho.held⟩

theorem log_grows {s s' : State} {a : Act} (hs : step s a = some s') : ∃ es, s'.log = s.log ++ es := by
  have hnot {s s' : State} {w : Option Nat} (hs : s.notify w = some s') : s'.log = s.log := by
    cases w <;> simp only [State.notify] at hs <;> split at hs <;> cases hs <;> rfl
  have hstop {s s' : State} {t : Nat} {w : Option Nat} (hs : s.stopNow t w = some s') : ∃ es, s'.log = s.log ++ es := by
    unfold State.stopNow at hs; split at hs
    · exact ⟨[.stopped t], by rw [hnot hs]; rfl⟩
    · cases hs; exact ⟨[.stopped t], rfl⟩
  cases a with
  | start t d exec => simp only [step] at hs; split at hs <;> cases hs; exact ⟨_, rfl⟩
  | go t w =>
    simp only [step, Option.bind_eq_some_iff] at hs
    obtain ⟨f, htop, hs⟩ := hs
    unfold stepGo at hs
    split at hs
    · cases hs; exact ⟨[], by simp [State.setPc]⟩
    · split at hs
      · obtain ⟨es, he⟩ := hstop hs; exact ⟨es, he⟩
      · cases hs
    · split at hs <;> cases hs; exact ⟨_, rfl⟩
    · split at hs
      · split at hs <;> cases hs
        · exact ⟨[], by simp⟩
        · exact ⟨_, rfl⟩
      · cases hs
    · split at hs
      · split at hs <;> cases hs
        · exact ⟨_, rfl⟩
        · exact ⟨_, rfl⟩
      · cases hs
    · cases hs
  | ret t =>
    simp only [step, Option.bind_eq_some_iff] at hs
    obtain ⟨f, htop, hs⟩ := hs
    unfold stepRet at hs
    split at hs
    · split at hs <;> cases hs
      · exact ⟨_, rfl⟩
      · exact ⟨[.calledBack f, .returned f s.now], by simp [State.leave, State.note]⟩
    · cases hs
  | spurious f => simp only [step] at hs; split at hs <;> cases hs; exact ⟨[], by simp [State.setPc]⟩
  | expire f => simp only [step] at hs; split at hs <;> cases hs; exact ⟨[], by simp [State.setPc]⟩
  | stop t w => simp only [step] at hs; split at hs; exact hstop hs; cases hs
  | restart t w => simp only [step] at hs; split at hs; exact ⟨_, by rw [hnot hs]; rfl⟩; cases hs
  | setCyclic t b => simp only [step] at hs; split at hs <;> cases hs; exact ⟨_, rfl⟩
  | tick => cases hs; exact ⟨[], by simp⟩

theorem run_grows {s s' : State} {as : List Act} (hr : run s as = some s') : ∃ es, s'.log = s.log ++ es := by
  induction as generalizing s with
  | nil => cases hr; exact ⟨[], by simp⟩
  | cons a as ih =>
    simp only [run, Option.bind_eq_some_iff] at hr
    obtain ⟨s1, h1, h2⟩ := hr
    obtain ⟨e1, h3⟩ := log_grows h1
    obtain ⟨e2, h4⟩ := ih h2
    exact ⟨e1 ++ e2, by rw [h4, h3]; simp⟩

theorem Solo_run {c0 : Bool} {s s' : State} (h : Inv c0 s) (ho : Solo s) {as : List Act} (hr : run s as = some s') (hap : Apart s'.log) : Solo s' := by
  induction as generalizing s with
  | nil => cases hr; exact ho
  | cons a as ih =>
    simp only [run, Option.bind_eq_some_iff] at hr
    obtain ⟨s1, h1, h2⟩ := hr
    obtain ⟨es, h3⟩ := run_grows h2
    exact ih (inv_step h h1) (Solo_step h ho h1 (by rw [h3] at hap; exact hap.left)) h2

/-- C74 (part): a stop is not missed. If threads use the timer one after the other, then whenever the timer is stopped, a `start` that had set it running and is not in its callback returns with its next step. -/
theorem stop_ends_partial {c0 : Bool} {as : List Act} {s : State} (h : run (init c0) as = some s) (hap : Apart s.log) (hr : runningIn s.log = false) {f th d t : Nat} (hb : .begun f th d t ∈ s.log) (he : .entered f ∈ s.log)
    (hn : ∀ u, .returned f u ∉ s.log) (hc : inCb f s.log = false) (w : Option Nat) : ∃ s', step s (.go th w) = some s' ∧ s'.log = s.log ++ [.returned f s.now] := by
  have hi := inv_run (inv_init c0) h
  have ho : Solo s := Solo_run (inv_init c0) ⟨by simp [init], by simp [init], by simp [init], by simp [init]⟩ h hap
  have hlt : f < s.next := Nat.lt_of_not_le fun hx => (hi.fresh f hx).2 _ he rfl
  have hf := hi.old f hlt
  have hth := (hf.only _ _ _ hb).1
  have hg : (s.frame f).pc ≠ .gone := fun hx => by obtain ⟨u, hu⟩ := hf.back.1 hx; exact hn u hu
  have hnc : (s.frame f).pc ≠ .calling := fun hx => by rw [hf.incb.2 hx] at hc; cases hc
  have hrun : s.running = false := by rw [hi.run]; exact hr
  have hns : (s.frame f).pc ≠ .asleep := fun hx => by have := ho.sleep f hx; rw [hrun] at this; cases this
  have hne : (s.frame f).pc.early = false := by
    cases hx : (s.frame f).pc.early with
    | false => rfl
    | true => exact absurd he (hf.pre.1 hx)
  have hin := hi.inside f hlt hg
  rw [← hth] at hin
  have htop : s.top th = some f := by
    cases hs : s.stack th with
    | nil => rw [hs] at hin; cases hin
    | cons x r =>
      rw [hs] at hin; simp at hin
      rcases hin with rfl | hin
      · simp [State.top, hs]
      · exact absurd (hi.under th x r hs f hin) hnc
  have hm : s.mutex th = true := by
    cases hw : s.owner with
    | none => simp [State.mutex, hw]
    | some u =>
      obtain ⟨g, h1, h2, h3⟩ := ho.held u hw
      have := ho.one f g hlt h1 hg (by rw [h2]; exact fun h => by cases h)
      have : u = th := by rw [← h3, ← this, hth]
      simp [State.mutex, hw, this]
  refine ⟨s.leave th f, ?_, rfl⟩
  simp only [step, htop, Option.bind_some, stepGo]
  cases hx : (s.frame f).pc with
  | none => exact absurd hx hf.live
  | woken => simp [hm, hrun]
  | expired => simp [hm, hrun]
  | check => rw [hx] at hne; cases hne
  | stopping => rw [hx] at hne; cases hne
  | enter => rw [hx] at hne; cases hne
  | asleep => exact absurd hx hns
  | calling => exact absurd hx hnc
  | gone => exact absurd hx hg

/-- The hypotheses are met: thread 1 starts a cyclic timer, which calls the callback twice; the second time, it makes the timer one-shot; then thread 2 starts it, and thread 1 stops it. -/
example : ∃ s, run (init true) [.start 1 2 false, .go 1 none, .go 1 none, .tick, .tick, .expire 0, .go 1 none, .ret 1, .tick, .tick, .expire 0, .go 1 none, .setCyclic 1 false, .ret 1,
      .start 2 9 false, .go 2 none, .go 2 none, .stop 1 (some 1)] = some s ∧
    s.log = [.begun 0 1 2 0, .entered 0, .fired 0 2 true, .calledBack 0, .fired 0 4 true, .cyclicSet false, .calledBack 0, .returned 0 4, .begun 1 2 9 4, .entered 1, .stopped 1] ∧
    runningIn s.log = false ∧ inCb 1 s.log = false ∧ (∃ s', step s (.go 2 none) = some s' ∧ s'.log = s.log ++ [.returned 1 4]) := ⟨_, rfl, rfl, rfl, rfl, _, rfl, rfl⟩

end Maf.SyncT
