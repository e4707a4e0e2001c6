import Verif.Lemmas.ProcessorDispatch
/-
Locks of the processor: who holds what.
-/
namespace Maf.Proc

/-- The owner of a signal's lock is emitting. -/
def EmI (stk : Tid → List Frame) (emitter : SigId → Option Tid) : Prop :=
  ∀ g t, emitter g = some t → g ∈ notifs (stk t)

theorem notifs_if (k : Loop) (b : Bool) (r : List Frame) :
    notifs ((if k = .once then .leaving b else .loop k b) :: r) = notifs r := by
  split <;> rfl

theorem EmI_step {s s' : State} {a : Act} (h : EmI s.stk s.emitter) (hs : step s a = some s') : EmI s'.stk s'.emitter := by
  obtain ⟨hoth, -⟩ := step_other hs
  intro g t hg
  by_cases ht : t = a.tid
  · have h1 := h g t
    subst ht
    clear hoth
    replace hs := (step_body hs).2
    peel
    all_goals simp only [Act.tid, release_emitter, release_stk, upd_same] at hg h1 ⊢
    all_goals try exact h1 hg
    all_goals (try have hst := ‹s.stk _ = _›)
    all_goals (try rw [hst] at h1)
    all_goals (try rw [hst])
    all_goals (try exact h1 hg)
    all_goals (try simp only [notifs, notifs_if] at h1 ⊢)
    all_goals (try exact h1 hg)
    · next g0 _ _ _ _ _ _ _ _ =>
      simp only [upd] at hg
      split at hg
      · next e => subst e; exact List.mem_cons_self
      · exact List.mem_cons_of_mem _ (h1 hg)
    · next g0 _ _ _ _ _ _ _ _ =>
      simp only [upd] at hg
      split at hg
      · cases hg
      · next e =>
        rcases List.mem_cons.1 (h1 hg) with e' | h'
        · exact absurd e' e
        · exact h'
  · rw [(hoth t ht).1]
    refine h g t ?_
    clear hoth
    replace hs := (step_body hs).2
    peel
    all_goals simp only [Act.tid, release_emitter] at hg ht ⊢
    all_goals try exact hg
    all_goals simp only [upd] at hg
    all_goals split at hg
    all_goals first | exact hg | (cases hg; done) | skip
    cases hg; exact absurd rfl ht

theorem EmI_run (acts : List Act) (s : State) (h : run init acts = some s) : EmI s.stk s.emitter :=
  run_inv (fun s => EmI s.stk s.emitter) (by simp [EmI, init]) (fun _ _ _ h hs => EmI_step h hs) acts s h

/-- Nobody else can take a signal's lock away. -/
theorem emitter_keeps {s s' : State} {a : Act} {g : SigId} {u : Tid} (hd : DI s.stk s.sigs s.emitter s.log) (hs : step s a = some s')
    (hg : s.emitter g = some u) (hu : a.tid ≠ u) : s'.emitter g = some u := by
  replace hs := (step_body hs).2
  peel
  all_goals simp only [Act.tid, release_emitter] at hu ⊢
  all_goals try exact hg
  all_goals have hst := ‹s.stk _ = _›
  all_goals simp only [upd]
  all_goals split
  all_goals try exact hg
  · next e =>
    subst e
    have hk := ‹¬kFree s _ _ = false›
    simp only [kFree, hg] at hk
    simp at hk
    exact absurd hk.symm hu
  · next e =>
    subst e
    have := (hd.noti _ _ _ _ (by rw [hst]; exact List.mem_cons_self)).2.2
    rw [hg] at this
    cases this
    exact absurd rfl hu

/-- Nobody else can take the map's lock away. -/
theorem owner_keeps {s s' : State} {a : Act} {t : Tid} (ho : ∀ t, holdsM (s.stk t) = true ↔ s.mOwner = some t) (hs : step s a = some s')
    (hg : s.mOwner = some t) (hu : a.tid ≠ t) : s'.mOwner = some t := by
  have hn : ∀ u, u ≠ t → holdsM (s.stk u) = false := by
    intro u hne
    cases hh : holdsM (s.stk u) with
    | false => rfl
    | true => have := (ho u).1 hh; rw [hg] at this; cases this; exact absurd rfl hne
  have hm := hn _ hu
  clear hn
  replace hs := (step_body hs).2
  peel
  all_goals simp only [Act.tid, release_mOwner] at hu hm ⊢
  all_goals try exact hg
  all_goals (try have hst := ‹s.stk _ = _›)
  all_goals (try rw [hst] at hm)
  all_goals (try (simp [holdsM] at hm; done))
  all_goals simp_all

end Maf.Proc
