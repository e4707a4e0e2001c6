import Verif.Lemmas.ProcessorQueue
namespace Maf.Proc

/-! ### Signals inside the processor -/

def Reach (g : Sig.State Msg) : Prop := ∃ acts, Sig.run (Sig.init Msg) acts = some g

theorem Reach.step {g g' : Sig.State Msg} {a : Sig.Act Msg} (h : Reach g) (hs : Sig.step g a = some g') : Reach g' := by
  obtain ⟨acts, ha⟩ := h
  refine ⟨acts ++ [a], ?_⟩
  have : ∀ (l : List (Sig.Act Msg)) (s0 : Sig.State Msg), Sig.run s0 l = some g → Sig.run s0 (l ++ [a]) = some g' := by
    intro l
    induction l with
    | nil => intro s0 h; cases h; simp [Sig.run, hs]
    | cons b l ih =>
      intro s0 h
      simp only [Sig.run, List.cons_append] at h ⊢
      cases hb : Sig.step s0 b with
      | none => rw [hb] at h; cases h
      | some s1 => rw [hb] at h; exact ih s1 h
  exact this acts _ ha

theorem Reach.inv {g : Sig.State Msg} (h : Reach g) : Sig.Inv g := by
  obtain ⟨acts, ha⟩ := h; exact Sig.inv_run acts g ha

/-- Each signal has moved by its own steps, and its log is in the processor's log. -/
structure SI (f : SigId → Sig.State Msg) (l : List Ev) : Prop where
  reach : ∀ g, Reach (f g)
  log : ∀ g, sigLog g l = (f g).log

def Ev.isSig : Ev → Bool
  | .sig .. => true
  | _ => false

theorem sigLog_nosig {g : Nat} {es : List Ev} (he : ∀ e ∈ es, e.isSig = false) : sigLog g es = [] := by
  simp only [sigLog, List.filterMap_eq_nil_iff]
  intro e hm; have := he e hm; cases e <;> simp [Ev.isSig] at this ⊢

theorem SI.app {f : SigId → Sig.State Msg} {l es : List Ev} (h : SI f l) (he : ∀ e ∈ es, e.isSig = false) :
    SI f (l ++ es) :=
  ⟨h.reach, fun g => by rw [sigLog_append, sigLog_nosig he, List.append_nil]; exact h.log g⟩

theorem SI.upd {f : SigId → Sig.State Msg} {l : List Ev} {t g : Nat} {a : Sig.Act Msg} {g' : Sig.State Msg} {es : List (Sig.Ev Msg)}
    (h : SI f l) (hg : Sig.step (f g) a = some g') (he : g'.log = (f g).log ++ es) :
    SI (upd f g g') (l ++ es.map (.sig t g)) := by
  refine ⟨fun h' => ?_, fun h' => ?_⟩
  · by_cases e : h' = g
    · subst e; rw [upd_same]; exact (h.reach h').step hg
    · rw [upd_other e]; exact h.reach h'
  · rw [sigLog_append, sigLog_sig, h.log]
    by_cases e : h' = g
    · subst e; rw [upd_same]; simp [he]
    · rw [upd_other e, if_neg (fun x => e x.symm)]; simp

theorem SI.sigStep {s s' : State} {t g : Nat} {a : Sig.Act Msg} (hs : sigStep s t g a = some s') (h : SI s.sigs s.log) :
    SI s'.sigs s'.log := by
  obtain ⟨g', es, h1, h2, rfl⟩ := sigStep_spec hs
  exact h.upd h1 h2

theorem SI.release {s : State} {t g : Nat} (h : SI s.sigs s.log) : SI (release s t g).sigs (release s t g).log := by
  rcases release_spec s t g with e | ⟨g', es, h1, h2, _, e⟩
  · rw [e]; exact h
  · rw [e]; exact h.upd h1 h2

set_option hygiene false in
/-- Case analysis of a step, keeping `sigStep` and `release`. -/
macro "peel0" : tactic => `(tactic| (
  cases a <;> simp only [body, setStk, emitLog, endDispatch, endLoop] at hs <;> (repeat' split at hs) <;>
  first
  | (cases hs; done)
  | cases hs
  | skip))

theorem SI_step {s s' : State} {a : Act} (h : SI s.sigs s.log) (hs : step s a = some s') : SI s'.sigs s'.log := by
  replace hs := (step_body hs).2
  peel0
  all_goals
    repeat first
    | exact h
    | (have hx := SI.sigStep (‹sigStep _ _ _ _ = some _›) h; exact hx)
    | apply SI.release
    | apply SI.app
    | refine SI.sigStep hs ?_
  all_goals first
    | (simp [Ev.isSig]; done)
    | (intro e he; split at he <;> simp at he; subst he; rfl)
    | (simp; intro e he; rcases he with ⟨_, _, rfl⟩ | rfl <;> rfl)
    
/-! ### The map lock and the handler map -/

def holdsM : List Frame → Bool
  | .post2 .. :: _ => true
  | .conn _ :: _ => true
  | .cleanup _ :: _ => true
  | _ => false

theorem holdsM_user {l : List Frame} (h : atUser l = true) : holdsM l = false := by
  cases l with
  | nil => rfl
  | cons f l => cases f <;> simp [atUser, Frame.isUser, holdsM] at h ⊢
theorem holdsM_loop {l : List Frame} (h : atLoop l = true) : holdsM l = false := by
  cases l with
  | nil => rfl
  | cons f l => cases f <;> simp [atLoop, holdsM] at h ⊢
theorem holdsM_notif {l : List Frame} {d : Nat} {m : Msg} {g : SigId} (h : (l.head? == some (Frame.notifying d m g)) = true) :
    holdsM l = false := by
  cases l with
  | nil => rfl
  | cons f l => simp at h; subst h; rfl

/-- The owner of the map lock is the thread with such an activation. -/
theorem mOwner_step {s s' : State} {a : Act} (hw : ∀ t, wf (s.stk t) = true)
    (h : ∀ t, holdsM (s.stk t) = true ↔ s.mOwner = some t) (hs : step s a = some s') :
    ∀ t, holdsM (s'.stk t) = true ↔ s'.mOwner = some t := by
  have h0 := h
  obtain ⟨hoth, -⟩ := step_other hs
  replace h := h a.tid
  have key : (s'.mOwner = s.mOwner ∨ (s.mOwner = none ∧ s'.mOwner = some a.tid) ∨ (s.mOwner = some a.tid ∧ s'.mOwner = none)) ∧
      (holdsM (s'.stk a.tid) = true ↔ s'.mOwner = some a.tid) := by
    clear hoth h0
    selfpeel
    all_goals (try rw [hst])
    all_goals (try rw [holdsM_user hcc] at h)
    all_goals (try rw [holdsM_user hcc])
    all_goals (try rw [holdsM_notif hf])
    all_goals (try rw [holdsM_user hf])
    all_goals (try rw [holdsM_loop hf])
    all_goals (simp [holdsM] at h ⊢)
    all_goals (first | done | simp [h]; done | simp_all; done | skip)
  intro t
  by_cases ht : t = a.tid
  · subst ht; exact key.2
  · rw [(hoth t ht).1, h0]
    rcases key.1 with e | ⟨e1, e2⟩ | ⟨e1, e2⟩
    · rw [e]
    · rw [e1, e2]; simp; exact fun e => ht e.symm
    · rw [e1, e2]; simp; exact fun e => ht e.symm

end Maf.Proc
