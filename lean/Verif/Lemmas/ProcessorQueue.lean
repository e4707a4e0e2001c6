import Verif.Lemmas.Processor
namespace Maf.Proc

/-- The work of a push that is about to insert. -/
def pushOf : List Frame → List Work
  | .push2 w :: _ => [w]
  | _ => []

/-- The work that has been taken out of the queue and is about to be invoked. -/
def takenOf : List Frame → List Work
  | .taken w :: _ => [w]
  | _ => []

/-- Works being executed. -/
def works : List Frame → List Work
  | [] => []
  | .code n :: r => .exec n :: works r
  | .lookup m :: r => .msg m :: works r
  | .willNotify _ m _ :: r => .msg m :: works r
  | .notifying _ m _ :: r => .msg m :: works r
  | _ :: r => works r

def loops : List Frame → Nat
  | [] => 0
  | .loop .. :: r => loops r + 1
  | .leaving _ :: r => loops r + 1
  | _ :: r => loops r

def setLoops : List Frame → Nat
  | [] => 0
  | .loop _ true :: r => setLoops r + 1
  | .leaving true :: r => setLoops r + 1
  | _ :: r => setLoops r

theorem closed_step {s s' : State} {a : Act} (h : closedOf s.log = s.closed) (hs : step s a = some s') :
    closedOf s'.log = s'.closed := by
  replace hs := (step_body hs).2
  peel
  all_goals first
    | (simp [closedStep, h]; done)
    | (simp [h]; assumption)
    | (simp_all [closedStep]; done)
    | skip

theorem pushOf_user {l : List Frame} (h : atUser l = true) : pushOf l = [] := by
  cases l with
  | nil => rfl
  | cons f l => cases f <;> simp [atUser, Frame.isUser, pushOf] at h ⊢
theorem pushOf_notif {l : List Frame} {d : Nat} {m : Msg} {g : SigId} (h : (l.head? == some (Frame.notifying d m g)) = true) :
    pushOf l = [] := by
  cases l with
  | nil => rfl
  | cons f l => simp at h; subst h; rfl
theorem pushOf_loop {l : List Frame} (h : atLoop l = true) : pushOf l = [] := by
  cases l with
  | nil => rfl
  | cons f l => cases f <;> simp [atLoop, pushOf] at h ⊢
theorem takenOf_user {l : List Frame} (h : atUser l = true) : takenOf l = [] := by
  cases l with
  | nil => rfl
  | cons f l => cases f <;> simp [atUser, Frame.isUser, takenOf] at h ⊢
theorem takenOf_notif {l : List Frame} {d : Nat} {m : Msg} {g : SigId} (h : (l.head? == some (Frame.notifying d m g)) = true) :
    takenOf l = [] := by
  cases l with
  | nil => rfl
  | cons f l => simp at h; subst h; rfl
theorem takenOf_loop {l : List Frame} (h : atLoop l = true) : takenOf l = [] := by
  cases l with
  | nil => rfl
  | cons f l => cases f <;> simp [atLoop, takenOf] at h ⊢

theorem wf_top {s : State} (h : ∀ t, wf (s.stk t) = true) {t : Nat} {f : Frame} {rest : List Frame}
    (e : s.stk t = f :: rest) : fits f rest = true := by
  have := h t; rw [e] at this; simp [wf] at this; exact this.1

/-- `l'` continues `l` with events of thread `t`. -/
def LogBy (t : Tid) (l l' : List Ev) : Prop :=
  ∃ es, l' = l ++ es ∧ ∀ e ∈ es, e.tid = none ∨ e.tid = some t

theorem LogBy.refl {t : Tid} {l : List Ev} : LogBy t l l := ⟨[], by simp, by simp⟩
theorem LogBy.app {t : Tid} {l l' es : List Ev} (h : LogBy t l l') (he : ∀ e ∈ es, e.tid = none ∨ e.tid = some t) :
    LogBy t l (l' ++ es) := by
  obtain ⟨xs, rfl, hx⟩ := h
  refine ⟨xs ++ es, by simp, fun e hm => ?_⟩
  rcases List.mem_append.1 hm with hm | hm
  · exact hx e hm
  · exact he e hm
theorem LogBy.rel {t g : Tid} {l : List Ev} {s : State} (h : LogBy t l s.log) : LogBy t l (release s t g).log := by
  obtain ⟨f, u, es, he⟩ := release_eq s t g
  rw [he]
  exact h.app (by simp [Ev.tid])

/-- A step concerns one thread. -/
theorem step_other {s s' : State} {a : Act} (hs : step s a = some s') :
    (∀ u, u ≠ a.tid → s'.stk u = s.stk u ∧ s'.tl u = s.tl u) ∧ LogBy a.tid s.log s'.log := by
  replace hs := (step_body hs).2
  peel
  all_goals (
    simp only [Act.tid, release_stk, release_tl]
    refine ⟨fun u hu => ?_, ?_⟩
    · first
      | exact ⟨rfl, rfl⟩
      | (simp [upd, hu]; done)
      | (simp only [upd, hu, if_false, true_and]; split <;> simp [upd, hu]; done)
    · repeat first
        | exact LogBy.refl
        | apply LogBy.rel
        | apply LogBy.app
      all_goals (simp [Ev.tid]; try done)
      all_goals (intro e he; rcases he with ⟨_, _, rfl⟩ | rfl <;> simp))

theorem LogBy.acc {t u : Tid} {l l' : List Ev} (h : LogBy t l l') (hu : u ≠ t) :
    acceptedBy u l' = acceptedBy u l ∧ enteredBy u l' = enteredBy u l ∧ beganBy u l' = beganBy u l ∧
    ranBy u l' = ranBy u l ∧ depthOf u l' = depthOf u l ∧ openWork u l' = openWork u l := by
  obtain ⟨es, rfl, he⟩ := h
  simp only [acceptedBy_append, enteredBy_append, beganBy_append, ranBy_append, depthOf_append, openWork_append]
  have key : ∀ e ∈ es, ∀ v, e.tid = some v → v ≠ u := by
    intro e hm v hv
    rcases he e hm with h | h
    · rw [h] at hv; cases hv
    · rw [h] at hv; cases hv; exact fun e => hu e.symm
  refine ⟨?_, ?_, ?_, ?_, ?_, ?_⟩
  · rw [List.append_right_eq_self]; simp only [acceptedBy, List.filterMap_eq_nil_iff]
    intro e hm; have := key e hm; cases e <;> simp [Ev.tid] at this ⊢; assumption
  · rw [List.append_right_eq_self]; simp only [enteredBy, List.filterMap_eq_nil_iff]
    intro e hm; have := key e hm; cases e <;> simp [Ev.tid] at this ⊢; assumption
  · rw [List.append_right_eq_self]; simp only [beganBy, List.filterMap_eq_nil_iff]
    intro e hm; have := key e hm; cases e <;> simp [Ev.tid] at this ⊢; assumption
  · rw [List.append_right_eq_self]; simp only [ranBy, List.filterMap_eq_nil_iff]
    intro e hm; have := key e hm; cases e <;> simp [Ev.tid] at this ⊢; assumption
  · clear he
    generalize depthOf u l = n
    induction es generalizing n with
    | nil => rfl
    | cons e es ih =>
      have h0 := key e (by simp)
      rw [List.foldl_cons, ih (fun x hx => key x (by simp [hx]))]
      cases e <;> simp [Ev.tid] at h0 <;> simp [depthStep, h0]
  · clear he
    generalize openWork u l = n
    induction es generalizing n with
    | nil => rfl
    | cons e es ih =>
      have h0 := key e (by simp)
      rw [List.foldl_cons, ih (fun x hx => key x (by simp [hx]))]
      cases e <;> simp [Ev.tid] at h0 <;> simp [openStep, h0]

set_option hygiene false in
/-- The stepping thread's part of a per-thread invariant `h`. -/
macro "selfpeel" : tactic => `(tactic| (
    replace hs := (step_body hs).2
    have top : ∀ {t f rest}, s.stk t = f :: rest → fits f rest = true := wf_top hw
    peel
    all_goals simp only [Act.tid] at h ⊢
    all_goals try exact h
    all_goals (try simp only [release_stk, upd_same])
    all_goals (try have hst := ‹s.stk _ = _›)
    all_goals (try have hf := top hst)
    all_goals (try simp only [fits] at hf)
    all_goals clear top hw
    all_goals (try rw [hst] at h)
    all_goals (try have hcc := ‹¬ canCall s _ = false›)
    all_goals (try rw [canCall_iff, Bool.not_eq_false] at hcc)))

/-- What a thread has accepted has entered, except the one being inserted. -/
theorem acc_step {s s' : State} {a : Act} (hw : ∀ t, wf (s.stk t) = true) (u : Tid)
    (h : acceptedBy u s.log = enteredBy u s.log ++ pushOf (s.stk u)) (hs : step s a = some s') :
    acceptedBy u s'.log = enteredBy u s'.log ++ pushOf (s'.stk u) := by
  by_cases hu : u = a.tid
  · subst hu
    selfpeel
    all_goals (try rw [hst])
    all_goals (try rw [pushOf_user hcc] at h)
    all_goals (try rw [pushOf_user hcc])
    all_goals (try rw [pushOf_notif hf])
    all_goals (try rw [pushOf_user hf])
    all_goals (try rw [pushOf_loop hf])
    all_goals (simp [pushOf] at h ⊢)
    all_goals (try simp [h])
    all_goals (try simp [acceptedBy, enteredBy, Function.comp_def])
  · obtain ⟨h1, h2⟩ := step_other hs
    obtain ⟨a1, a2, -⟩ := h2.acc hu
    rw [a1, a2, (h1 u hu).1]; exact h

/-- What a thread has taken has run, except the one about to be invoked. -/
theorem beg_step {s s' : State} {a : Act} (hw : ∀ t, wf (s.stk t) = true) (u : Tid)
    (h : beganBy u s.log = ranBy u s.log ++ takenOf (s.stk u)) (hs : step s a = some s') :
    beganBy u s'.log = ranBy u s'.log ++ takenOf (s'.stk u) := by
  by_cases hu : u = a.tid
  · subst hu
    selfpeel
    all_goals (try rw [hst])
    all_goals (try rw [takenOf_user hcc] at h)
    all_goals (try rw [takenOf_user hcc])
    all_goals (try rw [takenOf_notif hf])
    all_goals (try rw [takenOf_user hf])
    all_goals (try rw [takenOf_loop hf])
    all_goals (simp [takenOf] at h ⊢)
    all_goals (try simp [h])
    all_goals (try simp [beganBy, ranBy, Function.comp_def])
    all_goals (split <;> rfl)
  · obtain ⟨h1, h2⟩ := step_other hs
    obtain ⟨-, -, a1, a2, -⟩ := h2.acc hu
    rw [a1, a2, (h1 u hu).1]; exact h

theorem depth_step {s s' : State} {a : Act} (hw : ∀ t, wf (s.stk t) = true) (u : Tid)
    (h : depthOf u s.log = loops (s.stk u)) (hs : step s a = some s') :
    depthOf u s'.log = loops (s'.stk u) := by
  by_cases hu : u = a.tid
  · subst hu
    selfpeel
    all_goals simp_all [loops, depthStep]
    all_goals (split <;> simp_all [loops])
  · obtain ⟨h1, h2⟩ := step_other hs
    obtain ⟨-, -, -, -, a1, -⟩ := h2.acc hu
    rw [a1, (h1 u hu).1]; exact h

theorem open_step {s s' : State} {a : Act} (hw : ∀ t, wf (s.stk t) = true) (u : Tid)
    (h : openWork u s.log = works (s.stk u)) (hs : step s a = some s') :
    openWork u s'.log = works (s'.stk u) := by
  by_cases hu : u = a.tid
  · subst hu
    selfpeel
    all_goals simp_all [works, openStep]
    all_goals (split <;> simp_all [works])
  · obtain ⟨h1, h2⟩ := step_other hs
    obtain ⟨-, -, -, -, -, a1⟩ := h2.acc hu
    rw [a1, (h1 u hu).1]; exact h

theorem tl_step {s s' : State} {a : Act} (hw : ∀ t, wf (s.stk t) = true) (u : Tid)
    (h : setLoops (s.stk u) = (s.tl u == some true).toNat) (hs : step s a = some s') :
    setLoops (s'.stk u) = (s'.tl u == some true).toNat := by
  by_cases hu : u = a.tid
  · subst hu
    selfpeel
    all_goals simp_all [setLoops]
    all_goals first
      | done
      | (generalize (s.tl _ == some true) = b at h; cases b <;> simp at h <;> omega)
      | (cases ‹Bool› <;> simpa [setLoops] using h)
  · obtain ⟨h1, h2⟩ := step_other hs
    rw [(h1 u hu).1, (h1 u hu).2]; exact h

end Maf.Proc
