import Verif.Lemmas.ThisProcessor
/-
C122: what code on a processor's thread sees, and what is left of it on the thread afterwards.
-/
namespace Maf.Tl

/-- Every event of every history obeys the rules: functions are called after `threadInit` has returned and before `threadDeinit`, by loops that are open; functions, destructors
and `threadDeinit` see the processor of the outermost loop as long as no `threadInit` has thrown; `threadInit` returns at most once, `threadDeinit` is called at most once per loop, and `run` does not end without it
(but for a `threadInit` that throws), however the loop ends. -/
theorem events_ok {as : List Act} {t : State} (hr : run start as = some t) : Hist EvOk t.log := (inv_run hr).hist

/-- As long as no `threadInit` has thrown, `instance()` is the processor of the outermost open loop; null if and only if there is none.
Missing: a `threadInit` that throws (`init_failed_stale`, `stale_forever`). -/
theorem instance_partial {as : List Act} {t : State} (hr : run start as = some t) (hf : ¬ InitFails t.log) :
    t.tl = outer t.log ∧ (t.tl = none ↔ openIn t.log = []) := by
  have h := (inv_run hr).outer hf
  refine ⟨h, ?_⟩
  rw [h]
  simp [outer]

/-- When the thread is out of all the library's code, no loop is open. -/
theorem out_of_loops {as : List Act} {t : State} (hr : run start as = some t) (hs : t.stk = []) : openIn t.log = [] := by
  have := (inv_run hr).opens
  rw [hs] at this
  exact this.symm

/-- Has the loop of this frame set the pointer? -/
def Frame.owner (f : Frame) : Bool :=
  match f.holds with
  | some (_, _, set) => set
  | none => false

/-- The pointer is set and nobody will clear it. -/
def Stale (q : Pid) (s : State) : Prop := s.tl = some q ∧ ∀ f ∈ s.stk, f.owner = false

theorem stale_step {q : Pid} {s t : State} {a : Act} (h : Stale q s) (hs : step s a = some t) : Stale q t := by
  obtain ⟨ht, hf⟩ := h
  have hd := step_alive hs
  have hc : ∀ f fs, s.stk = f :: fs → f.owner = false ∧ ∀ g ∈ fs, g.owner = false := by
    intro f fs hst; rw [hst] at hf; exact ⟨hf f (by simp), fun g hg => hf g (by simp [hg])⟩
  have hc2 : ∀ f g fs, s.stk = f :: g :: fs → g.owner = false ∧ ∀ e ∈ fs, e.owner = false := by
    intro f g fs hst; rw [hst] at hf; exact ⟨hf g (by simp), fun e he => hf e (by simp [he])⟩
  cases a with
  | enter p k =>
    simp only [step, hd, Bool.false_eq_true, if_false] at hs
    split at hs
    case isFalse => simp at hs
    case isTrue =>
      simp only [Option.some.injEq] at hs; subst hs
      refine ⟨by simp [setTl, ht], ?_⟩
      intro f hm
      simp only [List.mem_cons] at hm
      rcases hm with rfl | hm
      · by_cases hk : k = .run <;> simp [hk, Frame.owner, Frame.holds, ht]
      · exact hf f hm
  | take x =>
    simp only [step, hd, Bool.false_eq_true, if_false] at hs
    · split at hs <;> simp only [Option.some.injEq, reduceCtorEq] at hs <;> rename_i heq <;> subst hs <;> have h1 := hc _ _ heq <;> refine ⟨ht, ?_⟩ <;> intro f hm <;> simp only [List.mem_cons] at hm
      · rcases hm with rfl | hm
        · exact h1.1
        · exact h1.2 f hm
      · rcases hm with rfl | rfl | hm
        · rfl
        · exact h1.1
        · exact h1.2 f hm
  | giveUp =>
    simp only [step, hd, Bool.false_eq_true, if_false] at hs
    · split at hs <;> simp only [Option.some.injEq, reduceCtorEq] at hs
      rename_i heq; subst hs; have h1 := hc _ _ heq; refine ⟨ht, ?_⟩; intro f hm; simp only [List.mem_cons] at hm
      rcases hm with rfl | hm
      · exact h1.1
      · exact h1.2 f hm
  | ret =>
    simp only [step, hd, Bool.false_eq_true, if_false, doRet] at hs
    · split at hs <;> simp only [Option.some.injEq, reduceCtorEq] at hs <;> rename_i heq <;> subst hs <;> refine ⟨ht, ?_⟩ <;> intro f hm
      · have h1 := hc2 _ _ _ heq
        simp only [List.mem_cons] at hm
        rcases hm with rfl | hm
        · have h2 := h1.1
          split
          · exact h2
          · exact h2
        · exact h1.2 f hm
      · have h1 := hc _ _ heq
        simp only [List.mem_cons] at hm
        rcases hm with rfl | hm
        · exact h1.1
        · exact h1.2 f hm
      · exact (hc _ _ heq).2 f hm
      · exact (hc _ _ heq).2 f hm
  | throw =>
    simp only [step, hd, Bool.false_eq_true, if_false, doThrow] at hs
    · split at hs <;> simp only [Option.some.injEq, reduceCtorEq] at hs <;> rename_i heq <;> subst hs <;> refine ⟨ht, ?_⟩ <;> intro f hm
      · have h1 := hc2 _ _ _ heq
        simp only [List.mem_cons] at hm
        rcases hm with rfl | hm
        · exact h1.1
        · exact h1.2 f hm
      · exact (hc _ _ heq).2 f hm
      · exact hf f hm
      · exact hf f hm
  | go =>
    simp only [step, hd, Bool.false_eq_true, if_false, doGo] at hs
    · split at hs
      · rename_i heq; simp only [Option.some.injEq] at hs; subst hs
        have h1 := hc _ _ heq
        refine ⟨ht, ?_⟩; intro f hm; simp only [List.mem_cons] at hm
        rcases hm with rfl | rfl | hm
        · rfl
        · exact h1.1
        · exact h1.2 f hm
      · rename_i heq
        have h1 := hc _ _ heq
        have h2 := h1.1
        simp only [Frame.owner, Frame.holds] at h2
        split at hs <;> simp only [Option.some.injEq] at hs <;> subst hs
        · refine ⟨ht, ?_⟩; intro f hm; simp only [List.mem_cons] at hm
          rcases hm with rfl | rfl | hm
          · rfl
          · exact h2
          · exact h1.2 f hm
        · refine ⟨ht, ?_⟩; intro f hm; simp only [List.mem_cons] at hm
          rcases hm with rfl | rfl | hm
          · rfl
          · exact h2
          · exact h1.2 f hm
        · refine ⟨by simp [clearTl, h2, ht], ?_⟩; intro f hm; simp only [List.mem_cons] at hm
          rcases hm with rfl | hm
          · rfl
          · exact h1.2 f hm
      · rename_i heq; simp only [Option.some.injEq] at hs; subst hs
        have h1 := hc _ _ heq
        have h2 := h1.1
        simp only [Frame.owner, Frame.holds] at h2
        exact ⟨by simp [clearTl, h2, ht], h1.2⟩
      · rename_i heq; simp only [Option.some.injEq] at hs; subst hs
        have h1 := hc _ _ heq
        refine ⟨ht, ?_⟩; intro f hm; simp only [List.mem_cons] at hm
        rcases hm with rfl | rfl | hm
        · rfl
        · rfl
        · exact h1.2 f hm
      · rename_i heq; simp only [Option.some.injEq] at hs; subst hs
        exact ⟨ht, (hc _ _ heq).2⟩
      · simp at hs

theorem stale_called {q : Pid} {s t : State} {a : Act} (h : Stale q s) (hs : step s a = some t) :
    ∃ es, t.log = s.log ++ es ∧ ∀ n x v, .called n x v ∈ es → v = some q := by
  have ht := h.1
  clear h
  have none' : ∃ es, s.log = s.log ++ es ∧ ∀ n x v, Ev.called n x v ∈ es → v = some q := ⟨[], by simp, by simp⟩
  have one : ∀ e, (∀ n x v, e = Ev.called n x v → v = some q) → ∃ es, s.log ++ [e] = s.log ++ es ∧ ∀ n x v, Ev.called n x v ∈ es → v = some q := by
    intro e he
    refine ⟨[e], rfl, ?_⟩
    intro n x v hm; simp only [List.mem_singleton] at hm; exact he n x v hm.symm
  have hd := step_alive hs
  cases a with
  | enter p k =>
    simp only [step, hd, Bool.false_eq_true, if_false] at hs
    split at hs
    · simp only [Option.some.injEq] at hs; subst hs; exact one _ (by simp)
    · simp at hs
  | take x =>
    simp only [step, hd, Bool.false_eq_true, if_false] at hs
    split at hs <;> simp only [Option.some.injEq, reduceCtorEq] at hs <;> subst hs
    · exact none'
    · exact one _ (by simp)
  | giveUp =>
    simp only [step, hd, Bool.false_eq_true, if_false] at hs
    split at hs <;> simp only [Option.some.injEq, reduceCtorEq] at hs
    subst hs; exact none'
  | ret =>
    simp only [step, hd, Bool.false_eq_true, if_false, doRet] at hs
    split at hs <;> simp only [Option.some.injEq, reduceCtorEq] at hs <;> subst hs
    · exact none'
    · exact one _ (by simp)
    · exact none'
    · exact none'
  | throw =>
    simp only [step, hd, Bool.false_eq_true, if_false, doThrow] at hs
    split at hs <;> simp only [Option.some.injEq, reduceCtorEq] at hs <;> subst hs
    · exact none'
    · exact one _ (by simp)
    · exact none'
    · exact none'
  | go =>
    simp only [step, hd, Bool.false_eq_true, if_false, doGo] at hs
    split at hs
    · simp only [Option.some.injEq] at hs; subst hs
      refine one _ ?_
      intro n x v he; simp only [Ev.called.injEq] at he; rw [← he.2.2, ht]
    · split at hs <;> simp only [Option.some.injEq] at hs <;> subst hs <;> exact one _ (by simp)
    · simp only [Option.some.injEq] at hs; subst hs; exact one _ (by simp)
    · simp only [Option.some.injEq] at hs; subst hs; exact one _ (by simp)
    · simp only [Option.some.injEq] at hs; subst hs; exact none'
    · simp at hs

/-- The pointer set by a loop whose `threadInit` threw is never cleared: whatever the thread does from then on, `instance()` gives that processor, and every function
that any processor executes on this thread sees it. -/
theorem stale_forever {q : Pid} {s t : State} {as : List Act} (h : Stale q s) (hr : run s as = some t) :
    Stale q t ∧ ∃ es, t.log = s.log ++ es ∧ ∀ n x v, .called n x v ∈ es → v = some q := by
  induction as generalizing s with
  | nil => simp only [run, Option.some.injEq] at hr; subst hr; exact ⟨h, [], by simp, by simp⟩
  | cons a as ih =>
    simp only [run, Option.bind_eq_some_iff] at hr
    obtain ⟨u, hu, hr⟩ := hr
    obtain ⟨h1, es, he, hv⟩ := ih (stale_step h hu) hr
    obtain ⟨es', he', hv'⟩ := stale_called h hu
    refine ⟨h1, es' ++ es, by rw [he, he', List.append_assoc], ?_⟩
    intro n x v hm
    rw [List.mem_append] at hm
    rcases hm with hm | hm
    · exact hv' n x v hm
    · exact hv n x v hm

instance (l : List Ev) : Decidable (InitFails l) :=
  decidable_of_iff (∃ e ∈ l, ∃ n ∈ [e.lid], e = .initFailed n) (by
    constructor
    · rintro ⟨e, he, n, -, rfl⟩; exact ⟨n, he⟩
    · rintro ⟨n, hn⟩; exact ⟨_, hn, n, by simp [Ev.lid], rfl⟩)

instance (q : Pid) (s : State) : Decidable (Stale q s) := inferInstanceAs (Decidable (_ ∧ _))

theorem of_any {o : Option State} {P : State → Prop} [DecidablePred P] (h : o.any (fun t => decide (P t)) = true) : ∃ t, o = some t ∧ P t := by
  cases o with
  | none => simp at h
  | some t => exact ⟨t, rfl, by simpa using h⟩

/-- Refuted: after `run(threadInit)` of processor 7 has ended with `threadInit`'s exception, the thread is in no loop and still "is" processor 7 — for good; processor 8's
functions then see 7. -/
theorem init_failed_stale : ∃ t, run start [.enter 7 .run, .throw] = some t ∧ t.stk = [] ∧ openIn t.log = [] ∧ Stale 7 t ∧
    ∃ u, run t [.enter 8 .timed, .take 1, .go, .ret, .giveUp, .go, .go, .ret, .go] = some u ∧ u.stk = [] ∧ .called 1 1 (some 7) ∈ u.log ∧ u.tl = some 7 := by
  obtain ⟨t, ht, h⟩ := of_any (o := run start [.enter 7 .run, .throw]) (P := fun t => t.stk = [] ∧ openIn t.log = [] ∧ Stale 7 t ∧
    (run t [.enter 8 .timed, .take 1, .go, .ret, .giveUp, .go, .go, .ret, .go]).any (fun u => decide (u.stk = [] ∧ .called 1 1 (some 7) ∈ u.log ∧ u.tl = some 7))) (by decide +kernel)
  exact ⟨t, ht, h.1, h.2.1, h.2.2.1, of_any h.2.2.2⟩

/-- Refuted: what a function owns may be destroyed with no processor on the thread: in `runUntil`, `runFor`, `runOnceUntil`, `runOnceFor`, the last function executed is destroyed
after the pointer has been cleared, ... -/
theorem dropped_without : ∃ t, run start [.enter 7 .timed, .take 1, .go, .ret, .giveUp, .go, .go] = some t ∧
    .called 0 1 (some 7) ∈ t.log ∧ .dropped 0 1 none ∈ t.log := of_any (by decide +kernel)

/-- ... what destructors see is the outermost of the loops that have not let go, none if there is none; in particular never none while their own loop has not let go ... -/
theorem dropped_late {as : List Act} {t : State} (hr : run start as = some t) (hf : ¬ InitFails t.log) {l m : List Ev} {n : Lid} {x : Item} {v : Option Pid}
    (hl : t.log = l ++ .dropped n x v :: m) : v = outer l ∧ (.left n ∉ l → v ≠ none) := by
  have h := (events_ok hr).all _ _ _ hl
  apply h.1
  intro ⟨k, hk⟩
  exact hf ⟨k, by rw [hl]; simp [hk]⟩

/-- ... while in `run` everything is destroyed before. -/
theorem run_drops_before {as : List Act} {t : State} (hr : run start as = some t) {l m : List Ev} {n : Lid} {x : Item} {v : Option Pid} {p : Pid}
    (he : .entered n p .run ∈ l) (hl : t.log = l ++ .dropped n x v :: m) : .left n ∉ l :=
  ((events_ok hr).all _ _ _ hl).2 p he

/-- An exception out of `threadDeinit`, or out of a destructor, ends the program. -/
theorem throw_ends {as bs : List Act} {s t : State} (hr : run start as = some s) (hs : (∃ n, s.stk.head? = some (.deinit n)) ∨ ∃ n x, s.stk.head? = some (.dtor n x))
    (ht : run s (.throw :: bs) = some t) : bs = [] := by
  cases hk : s.stk with
  | nil => simp [hk] at hs
  | cons f fs =>
    have hd : ∃ u, step s .throw = some u ∧ run u bs = some t := by simpa [run, Option.bind_eq_some_iff] using ht
    obtain ⟨u, hu, hb⟩ := hd
    have hdead : u.dead = true := by
      have hu' := hu
      simp only [step] at hu'
      split at hu'
      · cases hu'
      · rcases hs with ⟨n, h⟩ | ⟨n, x, h⟩ <;> simp [hk] at h <;> subst h <;> simp [doThrow, hk] at hu' <;> subst hu' <;> rfl
    cases bs with
    | nil => rfl
    | cons b bs =>
      simp only [run, Option.bind_eq_some_iff] at hb
      obtain ⟨v, hv, -⟩ := hb
      rw [step_alive hv] at hdead
      cases hdead

example : ∃ s t, run start [.enter 7 .run, .ret, .giveUp, .go] = some s ∧ s.stk.head? = some (.deinit 0) ∧ run s [.throw] = some t := by
  obtain ⟨s, h, h2⟩ := of_any (o := run start [.enter 7 .run, .ret, .giveUp, .go]) (P := fun s => s.stk.head? = some (.deinit 0) ∧ (run s [.throw]).isSome) (by decide +kernel)
  exact ⟨s, _, h, h2.1, (Option.some_get h2.2).symm⟩

/-- The function a frame's loop still holds, called already. -/
def Frame.keeps : Frame → Option (Lid × Item)
  | .loop n _ _ _ (some x) | .calling n _ _ _ x | .leaving n _ _ _ (some x) | .rest n (some x) => some (n, x)
  | _ => none

def calls (e : Lid × Item) : Ev → Bool
  | .called n x _ => e = (n, x)
  | _ => false

def drops (e : Lid × Item) : Ev → Bool
  | .dropped n x _ => e = (n, x)
  | _ => false

def Balance (s : State) : Prop := ∀ e, s.log.countP (calls e) = s.log.countP (drops e) + s.stk.countP (fun f => decide (f.keeps = some e))

theorem balance_step {s t : State} {a : Act} (h : Balance s) (hs : step s a = some t) : Balance t := by
  have hd := step_alive hs
  intro e
  have h := h e
  cases a with
  | enter p k =>
    simp only [step, hd, Bool.false_eq_true, if_false] at hs
    split at hs
    · simp only [Option.some.injEq] at hs; subst hs
      by_cases hk : k = .run <;> simp [hk, calls, drops, Frame.keeps, List.countP_cons, List.countP_append, h]
    · simp at hs
  | take x =>
    simp only [step, hd, Bool.false_eq_true, if_false] at hs
    split at hs <;> simp only [Option.some.injEq, reduceCtorEq] at hs <;> rename_i heq <;> subst hs <;> rw [heq] at h <;>
      simp [calls, drops, Frame.keeps, List.countP_cons, List.countP_append, eq_comm] at h ⊢ <;> omega
  | giveUp =>
    simp only [step, hd, Bool.false_eq_true, if_false] at hs
    split at hs <;> simp only [Option.some.injEq, reduceCtorEq] at hs
    rename_i exc _ heq; subst hs; rw [heq] at h
    cases exc <;> simpa [calls, drops, Frame.keeps, List.countP_cons, List.countP_append] using h
  | ret =>
    simp only [step, hd, Bool.false_eq_true, if_false, doRet] at hs
    split at hs <;> simp only [Option.some.injEq, reduceCtorEq] at hs <;> rename_i heq <;> subst hs <;> rw [heq] at h
    · rename_i k _ _ _
      by_cases hk : k = .once <;> simpa [hk, calls, drops, Frame.keeps, List.countP_cons, List.countP_append] using h
    all_goals simpa [calls, drops, Frame.keeps, List.countP_cons, List.countP_append] using h
  | throw =>
    simp only [step, hd, Bool.false_eq_true, if_false, doThrow] at hs
    split at hs <;> simp only [Option.some.injEq, reduceCtorEq] at hs <;> rename_i heq <;> subst hs <;> rw [heq] at h
    all_goals (try rw [heq]); simpa [calls, drops, Frame.keeps, List.countP_cons, List.countP_append] using h
  | go =>
    simp only [step, hd, Bool.false_eq_true, if_false, doGo] at hs
    split at hs
    · rename_i heq; simp only [Option.some.injEq] at hs; subst hs; rw [heq] at h
      simp [calls, drops, Frame.keeps, List.countP_cons, List.countP_append, eq_comm] at h ⊢; omega
    · rename_i n p k set exc fs heq; rw [heq] at h
      split at hs <;> simp only [Option.some.injEq] at hs <;> subst hs
      · simp [calls, drops, Frame.keeps, List.countP_cons, List.countP_append, eq_comm] at h ⊢; omega
      · simpa [calls, drops, Frame.keeps, List.countP_cons, List.countP_append] using h
      · cases exc <;> simpa [calls, drops, Frame.keeps, List.countP_cons, List.countP_append] using h
    · rename_i heq; simp only [Option.some.injEq] at hs; subst hs; rw [heq] at h
      simpa [calls, drops, Frame.keeps, List.countP_cons, List.countP_append] using h
    · rename_i heq; simp only [Option.some.injEq] at hs; subst hs; rw [heq] at h
      simp [calls, drops, Frame.keeps, List.countP_cons, List.countP_append, eq_comm] at h ⊢; omega
    · rename_i heq; simp only [Option.some.injEq] at hs; subst hs; rw [heq] at h
      simpa [calls, drops, Frame.keeps, List.countP_cons, List.countP_append] using h
    · simp at hs

/-- Once the thread is out of the library's code, every function has been destroyed exactly as often as it was called: nothing the loops executed is kept or destroyed twice, however they ended. -/
theorem all_dropped {as : List Act} {t : State} (hr : run start as = some t) (hs : t.stk = []) (n : Lid) (x : Item) :
    t.log.countP (fun | .called m y _ => m = n ∧ y = x | _ => false) = t.log.countP (fun | .dropped m y _ => m = n ∧ y = x | _ => false) := by
  have h : Balance t := run_induct (fun _ _ _ => balance_step) (by intro e; simp [start]) hr
  have h := h (n, x)
  rw [hs] at h
  simp only [List.countP_nil, Nat.add_zero] at h
  have e1 : t.log.countP (calls (n, x)) = t.log.countP (fun | .called m y _ => m = n ∧ y = x | _ => false) := by
    apply List.countP_congr; intro e _; cases e <;> simp only [calls, Prod.mk.injEq, decide_eq_true_eq, Bool.false_eq_true]
    exact ⟨fun h => ⟨h.1.symm, h.2.symm⟩, fun h => ⟨h.1.symm, h.2.symm⟩⟩
  have e2 : t.log.countP (drops (n, x)) = t.log.countP (fun | .dropped m y _ => m = n ∧ y = x | _ => false) := by
    apply List.countP_congr; intro e _; cases e <;> simp only [drops, Prod.mk.injEq, decide_eq_true_eq, Bool.false_eq_true]
    exact ⟨fun h => ⟨h.1.symm, h.2.symm⟩, fun h => ⟨h.1.symm, h.2.symm⟩⟩
  rw [← e1, ← e2]; exact h

/-- Loops in loops, an exception out of a function caught by another one, and a second loop afterwards. -/
example : ∃ t, run start [.enter 7 .run, .ret, .take 1, .go, .enter 8 .once, .take 2, .go, .throw, .go, .go, .ret, .go, .ret, .giveUp, .go, .ret, .go, .ret, .go, .enter 9 .timed] = some t ∧
    ¬ InitFails t.log ∧ t.tl = some 9 ∧ openIn t.log = [(2, 9)] ∧ .called 1 2 (some 7) ∈ t.log ∧ .dropped 1 2 (some 7) ∈ t.log ∧ .deinit 0 (some 7) ∈ t.log :=
  of_any (by decide +kernel)

example : ∃ t, run start [.enter 7 .run, .ret, .take 1, .go, .ret, .take 2, .ret, .go, .ret, .giveUp, .go, .ret, .go, .ret, .go] = some t ∧ t.stk = [] ∧ t.tl = none ∧
    t.log = [.entered 0 7 .run, .initDone 0, .called 0 1 (some 7), .dropped 0 1 (some 7), .called 0 2 (some 7), .dropped 0 2 (some 7), .deinit 0 (some 7), .left 0] :=
  of_any (by decide +kernel)

end Maf.Tl
