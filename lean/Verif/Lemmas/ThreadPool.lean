import Verif.Model.ThreadPool
import Verif.Props.Queue
/-
Helper lemmas and the invariant of the thread pools.
-/
namespace Maf.Pool
open Maf.Q (Tid Ev Kind)
variable {α : Type}

/-! ### Reading logs -/

def tookL (l : List (PEv α)) : List α := l.filterMap fun | .took _ x => some x | _ => none
def ranL (l : List (PEv α)) : List α := l.filterMap fun | .ran _ x => some x | _ => none
def stoppedL (l : List (PEv α)) : List α := l.filterMap fun | .stopped x => some x | _ => none
def doneRunL (l : List (PEv α)) : List α := l.filterMap fun | .doneRun _ x => some x | _ => none
def doneQueuedL (l : List (PEv α)) : List α := l.filterMap fun | .doneQueued x => some x | _ => none

def gots (l : List (Ev α)) : List α := l.filterMap fun | .got _ x => some x | _ => none
def cleareds (l : List (Ev α)) : List α := l.filterMap fun | .cleared x => some x | _ => none

@[simp] theorem tookL_append (a b : List (PEv α)) : tookL (a ++ b) = tookL a ++ tookL b := by simp [tookL]
@[simp] theorem ranL_append (a b : List (PEv α)) : ranL (a ++ b) = ranL a ++ ranL b := by simp [ranL]
@[simp] theorem stoppedL_append (a b : List (PEv α)) : stoppedL (a ++ b) = stoppedL a ++ stoppedL b := by
  simp [stoppedL]
@[simp] theorem doneRunL_append (a b : List (PEv α)) : doneRunL (a ++ b) = doneRunL a ++ doneRunL b := by
  simp [doneRunL]
@[simp] theorem doneQueuedL_append (a b : List (PEv α)) :
    doneQueuedL (a ++ b) = doneQueuedL a ++ doneQueuedL b := by simp [doneQueuedL]
@[simp] theorem gots_append (a b : List (Ev α)) : gots (a ++ b) = gots a ++ gots b := by simp [gots]
@[simp] theorem cleareds_append (a b : List (Ev α)) : cleareds (a ++ b) = cleareds a ++ cleareds b := by
  simp [cleareds]

theorem filterMap_map_none {β γ δ : Type} (f : β → γ) (g : γ → Option δ) (h : ∀ b, g (f b) = none) (l : List β) :
    (l.map f).filterMap g = [] := by induction l <;> simp_all

theorem filterMap_map_some {β γ : Type} (f : β → γ) (g : γ → Option β) (h : ∀ b, g (f b) = some b) (l : List β) :
    (l.map f).filterMap g = l := by induction l <;> simp_all

theorem exits_perm (l : List (Ev α)) : (Maf.Q.exits l).Perm (gots l ++ cleareds l) := by
  induction l with
  | nil => simp [Maf.Q.exits, gots, cleareds]
  | cons e l ih =>
    cases e with
    | got t x => simpa [Maf.Q.exits, gots, cleareds] using ih
    | cleared x =>
      simp only [Maf.Q.exits, gots, cleareds, List.filterMap_cons] at ih ⊢
      exact (ih.cons x).trans List.perm_middle.symm
    | accepted t xs => simpa [Maf.Q.exits, gots, cleareds] using ih
    | refused t xs => simpa [Maf.Q.exits, gots, cleareds] using ih
    | entered t x => simpa [Maf.Q.exits, gots, cleareds] using ih
    | gaveUp t => simpa [Maf.Q.exits, gots, cleareds] using ih

/-! ### What the queue steps of a pool do -/

/-- A step of a wait returns nothing yet, false, or an element; it leaves `closed` alone. -/
theorem wait_effect {k : Kind α} {q q' : Maf.Q.State α} {a : Maf.Q.Act α} {t : Tid}
    (ha : waitStep a = some t) (hs : Maf.Q.step k q a = some q') :
    q'.closed = q.closed ∧ (q.q = [] → q'.q = []) ∧ (∀ v xs b, q'.pc v = .pushing xs b → q.pc v = .pushing xs b) ∧
      (q'.log = q.log ∨ q'.log = q.log ++ [.gaveUp t] ∨
        ∃ x, q.closed = false ∧ q'.log = q.log ++ [.got t x]) := by
  have hst := (Maf.Q.step_cases hs).2
  have updk : ∀ (p : Maf.Q.Pc α), (∀ xs b, p ≠ .pushing xs b) → ∀ v xs b,
      Maf.Q.upd q.pc t p v = .pushing xs b → q.pc v = .pushing xs b := by
    intro p hp v xs b h
    by_cases hv : v = t
    · subst hv; rw [show Maf.Q.upd q.pc v p v = p by simp [Maf.Q.upd]] at h; exact absurd h (hp _ _)
    · rwa [Maf.Q.upd_other hv] at h
  cases hst <;> simp only [waitStep, Option.some.injEq, reduceCtorEq] at ha <;> first | subst ha | skip
  case callWait timed ho hp =>
    cases timed <;> simp at ha
    subst ha
    exact ⟨rfl, id, updk _ (by simp), .inl rfl⟩
  case spurious timed hp =>
    refine ⟨by simp [Maf.Q.wakeOne, hp], by simp [Maf.Q.wakeOne, hp], ?_, .inl (by simp [Maf.Q.wakeOne, hp])⟩
    simp only [Maf.Q.wakeOne, hp]
    exact updk _ (by simp)
  case finishGot i x hp hc hx hm =>
    refine ⟨rfl, fun h => ?_, updk _ (by simp), .inr (.inr ⟨x, hc, rfl⟩)⟩
    rw [h] at hx; simp at hx
  all_goals first
    | exact ⟨rfl, id, updk _ (by simp), .inl rfl⟩
    | exact ⟨rfl, id, updk _ (by simp), .inr (.inl rfl)⟩
    | exact ⟨rfl, id, fun _ _ _ h => h, .inl rfl⟩

theorem push_effect {k : Kind α} {q q' : Maf.Q.State α} {t : Tid} {xs : List α} {b : Bool}
    (hs : Maf.Q.step k q (.callPush t xs b) = some q') :
    q'.closed = q.closed ∧ q'.q = q.q ∧ (q.closed = true → q'.pc = q.pc) ∧
      gots q'.log = gots q.log ∧ cleareds q'.log = cleareds q.log := by
  have hst := (Maf.Q.step_cases hs).2
  cases hst with
  | refused _ _ _ hp hc => exact ⟨rfl, rfl, fun _ => rfl, by simp [gots], by simp [cleareds]⟩
  | accepted _ _ _ hp hc hl => exact ⟨rfl, rfl, fun h => by simp [hc] at h, by simp [gots], by simp [cleareds]⟩

theorem doPush_effect {k : Kind α} {q q' : Maf.Q.State α} {t : Tid} {wk : Option Tid}
    (hs : Maf.Q.step k q (.doPush t wk) = some q') :
    q'.closed = q.closed ∧ (∃ xs b, q.pc t = .pushing xs b) ∧
      gots q'.log = gots q.log ∧ cleareds q'.log = cleareds q.log := by
  have hst := (Maf.Q.step_cases hs).2
  have g : ∀ xs : List α, gots (xs.map fun x => Ev.entered t x) = [] := fun xs =>
    filterMap_map_none _ _ (fun _ => rfl) xs
  have c : ∀ xs : List α, cleareds (xs.map fun x => Ev.entered t x) = [] := fun xs =>
    filterMap_map_none _ _ (fun _ => rfl) xs
  cases hst with
  | pushAll _ xs ho hp => exact ⟨rfl, ⟨_, _, hp⟩, by simp [g], by simp [c]⟩
  | pushNone _ xs ho hp hw => exact ⟨rfl, ⟨_, _, hp⟩, by simp [g], by simp [c]⟩
  | pushOne _ xs w ho hp hw =>
    refine ⟨?_, ⟨_, _, hp⟩, by simp [g], by simp [c]⟩
    simp only [Maf.Q.wakeOne]; split <;> rfl

theorem close_effect {k : Kind α} {q q' : Maf.Q.State α} {t : Tid}
    (hs : Maf.Q.step k q (.callClose t) = some q') :
    q'.closed = true ∧ q'.q = q.q ∧ q'.log = q.log := by
  have hst := (Maf.Q.step_cases hs).2
  cases hst with
  | closeAgain _ hp hc => exact ⟨hc, rfl, rfl⟩
  | close _ hp hc => exact ⟨rfl, rfl, rfl⟩

theorem notify_effect {k : Kind α} {q q' : Maf.Q.State α} {t : Tid}
    (hs : Maf.Q.step k q (.notifyAll t) = some q') :
    q'.closed = q.closed ∧ q'.q = q.q ∧ q'.log = q.log := by
  have hst := (Maf.Q.step_cases hs).2
  cases hst with
  | notifyAll _ hp => exact ⟨rfl, rfl, rfl⟩

theorem clear_effect {k : Kind α} {q q' : Maf.Q.State α} {t : Tid}
    (hs : Maf.Q.step k q (.clear t) = some q') :
    q'.closed = q.closed ∧ q'.q = [] ∧ q'.pc = q.pc ∧ gots q'.log = gots q.log ∧
      cleareds q'.log = cleareds q.log ++ q.q := by
  have hst := (Maf.Q.step_cases hs).2
  cases hst with
  | clear _ hp ho =>
    refine ⟨rfl, rfl, rfl, ?_, ?_⟩
    · show gots (q.log ++ q.q.map Ev.cleared) = _
      rw [gots_append, show gots (q.q.map Ev.cleared) = [] from filterMap_map_none _ _ (fun _ => rfl) _]
      simp
    · show cleareds (q.log ++ q.q.map Ev.cleared) = _
      rw [cleareds_append, show cleareds (q.q.map Ev.cleared) = q.q from
        filterMap_map_some Ev.cleared _ (fun _ => rfl) _]

/-! ### Runs -/

set_option linter.unusedSectionVars false
variable [DecidableEq α]

theorem run_append (k : Kind α) (s : State α) (a b : List (Act α)) :
    run k s (a ++ b) = (run k s a).bind fun s' => run k s' b := by
  induction a generalizing s with
  | nil => rfl
  | cons x a ih =>
    simp only [List.cons_append, run]
    cases step k s x with
    | none => rfl
    | some s1 => simpa using ih s1

/-- Induction over runs. -/
theorem run_inv {k : Kind α} (ok : Act α → Prop) (Inv : State α → Prop)
    (hstep : ∀ s a s', Inv s → ok a → step k s a = some s' → Inv s')
    (acts : List (Act α)) (s s' : State α) (h0 : Inv s) (hok : ∀ a ∈ acts, ok a)
    (h : run k s acts = some s') : Inv s' := by
  induction acts generalizing s with
  | nil => cases h; exact h0
  | cons a as ih =>
    simp only [run] at h
    cases hs : step k s a with
    | none => simp [hs] at h
    | some s1 =>
      simp only [hs, Option.bind_some] at h
      exact ih s1 (hstep s a s1 h0 (hok a (by simp)) hs) (fun a ha => hok a (by simp [ha])) h

/-- The queue step that is part of a pool step. -/
theorem step_queue {k : Kind α} {s s' : State α} {a : Act α} (hs : step k s a = some s') :
    s'.tq = s.tq ∨ ∃ qa, (∀ t, qa ≠ .reOpen t) ∧ Maf.Q.step k s.tq qa = some s'.tq := by
  cases a <;> simp only [step] at hs
  case wait t qa =>
    split at hs
    · cases hs
    · next hc =>
      simp only [not_or, Decidable.not_not] at hc
      cases hq : Maf.Q.step k s.tq qa with
      | none => simp [hq] at hs
      | some q' =>
        simp only [hq, Option.map_some, Option.some.injEq] at hs
        subst hs
        refine .inr ⟨qa, fun t e => ?_, hq⟩
        subst e; simp [waitStep] at hc
  case push t =>
    split at hs
    · next x hx =>
      cases hq : Maf.Q.step k s.tq (.callPush t [x] false) with
      | none => simp [hq] at hs
      | some q' =>
        simp only [hq, Option.map_some, Option.some.injEq] at hs
        subst hs
        exact .inr ⟨_, by simp, hq⟩
    · cases hs
  case doPush t wk =>
    split at hs
    · cases hs
    · cases hq : Maf.Q.step k s.tq (.doPush t wk) with
      | none => simp [hq] at hs
      | some q' =>
        simp only [hq, Option.map_some, Option.some.injEq] at hs
        subst hs
        exact .inr ⟨_, by simp, hq⟩
  case shutdown t =>
    split at hs
    · cases hs
    · cases hq : Maf.Q.step k s.tq (.callClose t) with
      | none => simp [hq] at hs
      | some q' =>
        simp only [hq, Option.map_some, Option.some.injEq] at hs
        subst hs
        exact .inr ⟨_, by simp, hq⟩
  case notify t =>
    split at hs
    · cases hs
    · cases hq : Maf.Q.step k s.tq (.notifyAll t) with
      | none => simp [hq] at hs
      | some q' =>
        simp only [hq, Option.map_some, Option.some.injEq] at hs
        subst hs
        exact .inr ⟨_, by simp, hq⟩
  case clear t =>
    split at hs
    · cases hs
    · cases hq : Maf.Q.step k s.tq (.clear t) with
      | none => simp [hq] at hs
      | some q' =>
        simp only [hq, Option.map_some, Option.some.injEq] at hs
        subst hs
        exact .inr ⟨_, by simp, hq⟩
  all_goals
    left
    repeat' split at hs
    all_goals first | (cases hs; rfl) | cases hs

/-- Every pool run contains a run of its queue, without `reOpen`. -/
theorem run_queue {k : Kind α} {st : Bool} {hw n : Nat} {acts : List (Act α)} {s : State α}
    (h : run k (init α st hw n) acts = some s) :
    ∃ qas, (∀ a ∈ qas, ∀ t, a ≠ Maf.Q.Act.reOpen t) ∧ Maf.Q.run k (Maf.Q.init α) qas = some s.tq := by
  refine run_inv (fun _ => True)
    (fun s => ∃ qas, (∀ a ∈ qas, ∀ t, a ≠ Maf.Q.Act.reOpen t) ∧ Maf.Q.run k (Maf.Q.init α) qas = some s.tq)
    ?_ acts _ s ⟨[], by simp, rfl⟩ (fun _ _ => trivial) h
  rintro s a s' ⟨qas, hn, hr⟩ _ hs
  rcases step_queue hs with e | ⟨qa, hq, hqs⟩
  · rw [e]; exact ⟨qas, hn, hr⟩
  · refine ⟨qas ++ [qa], ?_, ?_⟩
    · intro a ha
      rcases List.mem_append.1 ha with h | h
      · exact hn a h
      · simp at h; subst h; exact hq
    · have happ : ∀ (l : List (Maf.Q.Act α)) (q0 q1 : Maf.Q.State α), Maf.Q.run k q0 l = some q1 →
          Maf.Q.run k q0 (l ++ [qa]) = Maf.Q.step k q1 qa := by
        intro l
        induction l with
        | nil =>
          intro q0 q1 h
          cases h
          simp only [List.nil_append, Maf.Q.run]
          cases Maf.Q.step k q0 qa <;> rfl
        | cons b l ih =>
          intro q0 q1 h
          simp only [List.cons_append, Maf.Q.run] at h ⊢
          cases hb : Maf.Q.step k q0 b with
          | none => simp [hb] at h
          | some q2 => simp only [hb, Option.bind_some] at h ⊢; exact ih q2 q1 h
      rw [happ qas _ _ hr]; exact hqs

/-! ### Who holds which task -/

@[simp] theorem set_self {β : Type} (f : Tid → β) (t : Tid) (b : β) : set f t b t = b := by simp [set]
theorem set_other {β : Type} {f : Tid → β} {t v : Tid} {b : β} (h : v ≠ t) : set f t b v = f v := by simp [set, h]

theorem flatMap_set_notin {f : WPc α → List α} {w : Tid → WPc α} {l : List Tid} {t : Tid} (p : WPc α)
    (h : t ∉ l) : (l.flatMap fun v => f (set w t p v)) = l.flatMap fun v => f (w v) := by
  induction l with
  | nil => rfl
  | cons a l ih =>
    simp only [List.mem_cons, not_or] at h
    simp only [List.flatMap_cons, ih h.2, set_other (Ne.symm h.1)]

/-- Replacing the position of one worker. -/
theorem flatMap_set {f : WPc α → List α} {w : Tid → WPc α} {l : List Tid} {t : Tid} (p : WPc α)
    (hn : l.Nodup) (h : t ∈ l) :
    (f (w t) ++ l.flatMap fun v => f (set w t p v)).Perm (f p ++ l.flatMap fun v => f (w v)) := by
  induction l with
  | nil => cases h
  | cons a l ih =>
    rw [List.nodup_cons] at hn
    simp only [List.flatMap_cons]
    rcases List.mem_cons.1 h with e | hm
    · subst e
      rw [flatMap_set_notin p hn.1, set_self]
      exact (List.perm_append_comm_assoc _ _ _)
    · have hne : a ≠ t := fun e => hn.1 (e ▸ hm)
      rw [set_other hne]
      refine (List.perm_append_comm_assoc _ _ _).trans ?_
      refine ((ih hn.2 hm).append_left _).trans ?_
      exact (List.perm_append_comm_assoc _ _ _)

/-- Taken, not yet started. -/
def notYetRun : WPc α → List α
  | .toAdd x => [x]
  | .toRun x => [x]
  | _ => []

/-- Started, not yet reported done. -/
def beingRun : WPc α → List α
  | .running x => [x]
  | .toRemove x => [x]
  | .toDone x => [x]
  | _ => []

/-- In `_runningTasks`. -/
def listed : WPc α → List α
  | .toRun x => [x]
  | .running x => [x]
  | .toRemove x => [x]
  | _ => []

/-- All tasks at some stage, over the threads of the pool. -/
def held (f : WPc α → List α) (s : State α) : List α := s.workers.flatMap fun t => f (s.w t)

structure Inv (s : State α) : Prop where
  nodup : s.workers.Nodup
  mem : ∀ t, t ∈ s.workers ↔ s.w t ≠ .notWorker
  gots : tookL s.log = gots s.tq.log
  cleareds : doneQueuedL s.log = cleareds s.tq.log
  took : (tookL s.log).Perm (ranL s.log ++ held notYetRun s)
  ran : (ranL s.log).Perm (doneRunL s.log ++ held beingRun s)
  listed : s.runningTasks.Perm (held listed s)

theorem inv_init (st : Bool) (hw n : Nat) : Inv (init α st hw n) :=
  ⟨by simp [init], by simp [init], rfl, rfl, .rfl, .rfl, .rfl⟩

/-- A worker moves on. -/
theorem held_move {f : WPc α → List α} {s : State α} (h : Inv s) {t : Tid} {p : WPc α} (q : WPc α)
    (ht : s.w t = p) (hp : p ≠ .notWorker) :
    (f p ++ s.workers.flatMap fun v => f (set s.w t q v)).Perm (f q ++ held f s) := by
  subst ht
  exact flatMap_set q h.nodup ((h.mem t).2 hp)

/-- A new worker, which holds nothing. -/
theorem held_new {f : WPc α → List α} {s : State α} (h : Inv s) {t : Tid} (ht : s.w t = .notWorker)
    (hf : f .loop = []) :
    ((s.workers ++ [t]).flatMap fun v => f (set s.w t .loop v)) = held f s := by
  have : t ∉ s.workers := fun hm => (h.mem t).1 hm ht
  rw [List.flatMap_append, flatMap_set_notin _ this]
  simp [held, hf]

theorem set_ne_iff {s : State α} (h : Inv s) {t : Tid} {q : WPc α} (hw : s.w t ≠ .notWorker)
    (hq : q ≠ .notWorker) : ∀ v, v ∈ s.workers ↔ set s.w t q v ≠ .notWorker := by
  intro v
  by_cases hv : v = t
  · subst hv; simp [hq, (h.mem v).2 hw]
  · rw [set_other hv]; exact h.mem v

theorem inv_new {s : State α} (h : Inv s) {n : Tid} (hw : s.w n = .notWorker) (u' : Tid → UPc α) (c : Nat) :
    Inv { s with workers := s.workers ++ [n], w := set s.w n .loop, u := u', ctor := c } := by
  have hn : n ∉ s.workers := fun hm => (h.mem n).1 hm hw
  refine ⟨?_, ?_, h.gots, h.cleareds, ?_, ?_, ?_⟩
  · exact List.nodup_append.2 ⟨h.nodup, by simp, by
      intro a ha b hb e; simp at hb; subst hb; subst e; exact hn ha⟩
  · intro v
    show v ∈ s.workers ++ [n] ↔ set s.w n .loop v ≠ _
    by_cases hv : v = n
    · subst hv; simp
    · rw [set_other hv]; simp [hv, h.mem v]
  · show (tookL s.log).Perm (ranL s.log ++ ((s.workers ++ [n]).flatMap fun v => notYetRun (set s.w n .loop v)))
    rw [held_new h hw rfl]; exact h.took
  · show (ranL s.log).Perm (doneRunL s.log ++ ((s.workers ++ [n]).flatMap fun v => beingRun (set s.w n .loop v)))
    rw [held_new h hw rfl]; exact h.ran
  · show s.runningTasks.Perm ((s.workers ++ [n]).flatMap fun v => Pool.listed (set s.w n .loop v))
    rw [held_new h hw rfl]; exact h.listed

/-- The tasks a worker moves between stages. -/
theorem inv_move {s : State α} (h : Inv s) {t : Tid} {p q : WPc α} (ht : s.w t = p)
    (hp : p ≠ .notWorker) (hq : q ≠ .notWorker) (s' : State α) (l : List (PEv α))
    (hs : s'.workers = s.workers ∧ s'.w = set s.w t q ∧ s'.log = s.log ++ l)
    (hg : tookL s'.log = Pool.gots s'.tq.log)
    (hc : doneQueuedL s'.log = Pool.cleareds s'.tq.log)
    (h1 : (tookL l ++ notYetRun p).Perm (ranL l ++ notYetRun q))
    (h2 : (ranL l ++ beingRun p).Perm (doneRunL l ++ beingRun q))
    (h3 : (s'.runningTasks ++ Pool.listed p).Perm (s.runningTasks ++ Pool.listed q)) : Inv s' := by
  obtain ⟨e1, e2, e3⟩ := hs
  have sum : ∀ (f : WPc α → List α) (A B : List α) (a b : List α), A.Perm (B ++ held f s) →
      (a ++ f p).Perm (b ++ f q) → (A ++ a).Perm ((B ++ b) ++ held f s') := by
    intro f A B a b hA hab
    have hm := held_move (f := f) h q ht hp
    have e : held f s' = s.workers.flatMap fun v => f (set s.w t q v) := by simp [held, e1, e2]
    rw [← e] at hm
    rw [List.perm_iff_count] at hm hA hab ⊢
    intro x
    have h1 := hm x
    have h2 := hA x
    have h3 := hab x
    simp only [List.count_append] at h1 h2 h3 ⊢
    omega
  refine ⟨by rw [e1]; exact h.nodup, by rw [e1, e2]; exact set_ne_iff h (ht ▸ hp) hq, hg, hc, ?_, ?_, ?_⟩
  · rw [e3, tookL_append, ranL_append]; exact sum _ _ _ _ _ h.took h1
  · rw [e3, ranL_append, doneRunL_append]; exact sum _ _ _ _ _ h.ran h2
  · have hm := held_move (f := Pool.listed) h q ht hp
    have e : held Pool.listed s' = s.workers.flatMap fun v => Pool.listed (set s.w t q v) := by simp [held, e1, e2]
    rw [← e] at hm
    apply (List.perm_append_left_iff (Pool.listed p)).1
    refine List.perm_append_comm.trans (h3.trans ?_)
    refine List.perm_append_comm.trans ?_
    exact (h.listed.append_left _).trans hm.symm

theorem inv_step {k : Kind α} {s s' : State α} {a : Act α} (h : Inv s) (hs : step k s a = some s') : Inv s' := by
  cases a with
  | ctorLaunch n ok =>
    simp only [step] at hs
    split at hs
    · cases hs
    · split at hs
      · cases hs
      · next hc =>
        simp only [not_or, Decidable.not_not] at hc
        split at hs
        · cases hs; exact inv_new h hc.1 s.u _
        · cases hs; exact ⟨h.nodup, h.mem, h.gots, h.cleareds, h.took, h.ran, h.listed⟩
  | callRun t x =>
    simp only [step] at hs
    split at hs
    · cases hs
    · cases hs; exact ⟨h.nodup, h.mem, h.gots, h.cleareds, h.took, h.ran, h.listed⟩
  | setMax t n =>
    simp only [step] at hs
    split at hs
    · cases hs
    · cases hs; exact ⟨h.nodup, h.mem, h.gots, h.cleareds, h.took, h.ran, h.listed⟩
  | callRunDyn t x =>
    simp only [step] at hs
    split at hs
    · cases hs
    · split at hs <;> (cases hs; exact ⟨h.nodup, h.mem, h.gots, h.cleareds, h.took, h.ran, h.listed⟩)
  | checkSize t =>
    simp only [step] at hs
    split at hs
    · split at hs <;> (cases hs; exact ⟨h.nodup, h.mem, h.gots, h.cleareds, h.took, h.ran, h.listed⟩)
    · cases hs
  | emplace t n ok =>
    simp only [step] at hs
    split at hs
    · split at hs
      · cases hs
      · next hc =>
        simp only [not_or, Decidable.not_not] at hc
        split at hs
        · cases hs; exact inv_new h hc.1 _ s.ctor
        · cases hs; exact ⟨h.nodup, h.mem, h.gots, h.cleareds, h.took, h.ran, h.listed⟩
    · cases hs
  | push t =>
    simp only [step] at hs
    split at hs
    · next x hx =>
      cases hq : Maf.Q.step k s.tq (.callPush t [x] false) with
      | none => simp [hq] at hs
      | some q' =>
        simp only [hq, Option.map_some, Option.some.injEq] at hs
        subst hs
        obtain ⟨_, _, _, e1, e2⟩ := push_effect hq
        exact ⟨h.nodup, h.mem, h.gots.trans e1.symm, h.cleareds.trans e2.symm, h.took, h.ran, h.listed⟩
    · cases hs
  | doPush t wk =>
    simp only [step] at hs
    split at hs
    · cases hs
    · cases hq : Maf.Q.step k s.tq (.doPush t wk) with
      | none => simp [hq] at hs
      | some q' =>
        simp only [hq, Option.map_some, Option.some.injEq] at hs
        subst hs
        obtain ⟨_, _, e1, e2⟩ := doPush_effect hq
        exact ⟨h.nodup, h.mem, h.gots.trans e1.symm, h.cleareds.trans e2.symm, h.took, h.ran, h.listed⟩
  | wait t qa =>
    simp only [step] at hs
    split at hs
    · cases hs
    · next hc =>
      simp only [not_or, Decidable.not_not] at hc
      cases hq : Maf.Q.step k s.tq qa with
      | none => simp [hq] at hs
      | some q' =>
        simp only [hq, Option.map_some, Option.some.injEq] at hs
        subst hs
        obtain ⟨_, _, _, e⟩ := wait_effect hc.2 hq
        have hsame : ∀ x, gots (s.tq.log ++ [Ev.got t x]) = gots s.tq.log ++ [x] := by intro x; simp [gots]
        rcases e with e | e | ⟨x, _, e⟩
        · have ea : afterWait s.tq.log q'.log = .loop := by simp [afterWait, e]
          refine inv_move h hc.1 (by simp) (q := .loop) (by simp) _ [] ⟨rfl, by simp [ea], by simp [ea]⟩ ?_ ?_
            .rfl .rfl .rfl
          · simp only [ea]; simpa [e] using h.gots
          · simp only [ea]; simpa [e] using h.cleareds
        · have ea : afterWait s.tq.log q'.log = .exited := by simp [afterWait, e]
          refine inv_move h hc.1 (by simp) (q := .exited) (by simp) _ [] ⟨rfl, by simp [ea], by simp [ea]⟩ ?_ ?_
            .rfl .rfl .rfl
          · simp only [ea]; simp only [e, List.append_nil, h.gots]; simp [gots]
          · simp only [ea]; simp only [e, List.append_nil, h.cleareds]; simp [cleareds]
        · have ea : afterWait s.tq.log q'.log = .toAdd x := by simp [afterWait, e]
          refine inv_move h hc.1 (by simp) (q := .toAdd x) (by simp) _ [.took t x]
            ⟨rfl, by simp [ea], by simp [ea]⟩ ?_ ?_ ?_ ?_ ?_
          · simp only [ea]; simp only [e, tookL_append, h.gots, hsame]; rfl
          · simp only [ea]; simp only [e, doneQueuedL_append, h.cleareds, cleareds_append]; rfl
          · exact .rfl
          · exact .rfl
          · exact .rfl
  | add t =>
    simp only [step] at hs
    split at hs
    · next x hx =>
      cases hs
      refine inv_move h hx (by simp) (q := .toRun x) (by simp) _ [] ⟨rfl, rfl, by simp⟩ h.gots h.cleareds .rfl .rfl ?_
      simp [Pool.listed]
    · cases hs
  | begin t =>
    simp only [step] at hs
    split at hs
    · next x hx =>
      cases hs
      refine inv_move h hx (by simp) (q := .running x) (by simp) _ [.ran t x] ⟨rfl, rfl, rfl⟩ ?_ ?_ .rfl .rfl .rfl
      · simpa [tookL] using h.gots
      · simpa [doneQueuedL] using h.cleareds
    · cases hs
  | finish t =>
    simp only [step] at hs
    split at hs
    · next x hx =>
      split at hs
      · cases hs
      · cases hs
        exact inv_move h hx (by simp) (q := .toRemove x) (by simp) _ [] ⟨rfl, rfl, by simp⟩ h.gots h.cleareds
          .rfl .rfl .rfl
    · cases hs
  | remove t =>
    simp only [step] at hs
    split at hs
    · next x hx =>
      cases hs
      refine inv_move h hx (by simp) (q := .toDone x) (by simp) _ [] ⟨rfl, rfl, by simp⟩ h.gots h.cleareds .rfl .rfl ?_
      simp only [Pool.listed, List.append_nil]
      have hm : x ∈ s.runningTasks := by
        rw [h.listed.mem_iff]
        refine List.mem_flatMap.2 ⟨t, (h.mem t).2 (by simp [hx]), by simp [hx, Pool.listed]⟩
      exact List.perm_append_comm.trans (List.perm_cons_erase hm).symm
    · cases hs
  | done t =>
    simp only [step] at hs
    split at hs
    · next x hx =>
      cases hs
      refine inv_move h hx (by simp) (q := .loop) (by simp) _ [.doneRun t x] ⟨rfl, rfl, rfl⟩ ?_ ?_ .rfl .rfl .rfl
      · simpa [tookL] using h.gots
      · simpa [doneQueuedL] using h.cleareds
    · cases hs
  | shutdown t =>
    simp only [step] at hs
    split at hs
    · cases hs
    · cases hq : Maf.Q.step k s.tq (.callClose t) with
      | none => simp [hq] at hs
      | some q' =>
        simp only [hq, Option.map_some, Option.some.injEq] at hs
        subst hs
        obtain ⟨_, _, e⟩ := close_effect hq
        exact ⟨h.nodup, h.mem, h.gots.trans (by rw [e]), h.cleareds.trans (by rw [e]), h.took, h.ran, h.listed⟩
  | notify t =>
    simp only [step] at hs
    split at hs
    · cases hs
    · cases hq : Maf.Q.step k s.tq (.notifyAll t) with
      | none => simp [hq] at hs
      | some q' =>
        simp only [hq, Option.map_some, Option.some.injEq] at hs
        subst hs
        obtain ⟨_, _, e⟩ := notify_effect hq
        exact ⟨h.nodup, h.mem, h.gots.trans (by rw [e]), h.cleareds.trans (by rw [e]), h.took, h.ran, h.listed⟩
  | stopRunning t =>
    simp only [step] at hs
    split at hs
    · cases hs
    · cases hs
      have n1 : tookL (s.runningTasks.map PEv.stopped) = [] := filterMap_map_none _ _ (fun _ => rfl) _
      have n2 : ranL (s.runningTasks.map PEv.stopped) = [] := filterMap_map_none _ _ (fun _ => rfl) _
      have n3 : doneRunL (s.runningTasks.map PEv.stopped) = [] := filterMap_map_none _ _ (fun _ => rfl) _
      have n4 : doneQueuedL (s.runningTasks.map PEv.stopped) = [] := filterMap_map_none _ _ (fun _ => rfl) _
      refine ⟨h.nodup, h.mem, ?_, ?_, ?_, ?_, h.listed⟩
      · simpa [n1] using h.gots
      · simpa [n4] using h.cleareds
      · simpa [n1, n2, held] using h.took
      · simpa [n2, n3, held] using h.ran
  | clear t =>
    simp only [step] at hs
    split at hs
    · cases hs
    · cases hq : Maf.Q.step k s.tq (.clear t) with
      | none => simp [hq] at hs
      | some q' =>
        simp only [hq, Option.map_some, Option.some.injEq] at hs
        subst hs
        obtain ⟨_, _, _, e1, e2⟩ := clear_effect hq
        have n1 : tookL (s.tq.q.map PEv.doneQueued) = [] := filterMap_map_none _ _ (fun _ => rfl) _
        have n2 : ranL (s.tq.q.map PEv.doneQueued) = [] := filterMap_map_none _ _ (fun _ => rfl) _
        have n3 : doneRunL (s.tq.q.map PEv.doneQueued) = [] := filterMap_map_none _ _ (fun _ => rfl) _
        have n4 : doneQueuedL (s.tq.q.map PEv.doneQueued) = s.tq.q :=
          filterMap_map_some PEv.doneQueued _ (fun _ => rfl) _
        refine ⟨h.nodup, h.mem, ?_, ?_, ?_, ?_, h.listed⟩
        · simpa [n1, e1] using h.gots
        · simp only [doneQueuedL_append, n4, e2, h.cleareds]
        · simpa [n1, n2, held] using h.took
        · simpa [n2, n3, held] using h.ran
  | join t =>
    simp only [step] at hs
    split at hs
    · split at hs
      · cases hs
      · split at hs
        · split at hs
          · cases hs; exact ⟨h.nodup, h.mem, h.gots, h.cleareds, h.took, h.ran, h.listed⟩
          · cases hs
        · cases hs; exact ⟨h.nodup, h.mem, h.gots, h.cleareds, h.took, h.ran, h.listed⟩
    · cases hs
  | destroy =>
    simp only [step] at hs
    split at hs
    · cases hs
    · cases hs; exact ⟨h.nodup, h.mem, h.gots, h.cleareds, h.took, h.ran, h.listed⟩

theorem inv_run {k : Kind α} {st : Bool} {hw n : Nat} {acts : List (Act α)} {s : State α}
    (h : run k (init α st hw n) acts = some s) : Inv s :=
  run_inv (fun _ => True) Inv (fun _ _ _ h _ hs => inv_step h hs) acts _ s (inv_init st hw n)
    (fun _ _ => trivial) h

end Maf.Pool
