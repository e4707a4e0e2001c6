import Verif.Spec.Processor
import Verif.Lemmas.Signal
/-
Lemmas about processor steps.
-/
namespace Maf.Proc

@[simp] theorem upd_same {β : Type} (f : Nat → β) (i : Nat) (v : β) : upd f i v i = v := by simp [upd]
theorem upd_other {β : Type} {f : Nat → β} {i j : Nat} {v : β} (h : j ≠ i) : upd f i v j = f j := by
  simp [upd, h]

/-- A step of a signal only adds to its log. -/
theorem sig_log_grows {A : Type} {s s' : Sig.State A} {a : Sig.Act A} (h : Sig.step s a = some s') :
    s.log <+: s'.log := by
  have hadd : ∀ (s : Sig.State A) sl, s.log <+: (Sig.add s sl).log := fun s sl => ⟨_, rfl⟩
  have hrem : ∀ (s : Sig.State A) sl, s.log <+: (Sig.remove s sl).1.log := by
    intro s sl
    simp only [Sig.remove]
    repeat' split
    all_goals first | exact List.prefix_rfl | exact ⟨_, rfl⟩
  have hdis : ∀ (s : Sig.State A) n, s.log <+: (Sig.disconnect s n).1.log := by
    intro s n
    simp only [Sig.disconnect]
    repeat' split
    all_goals try exact List.prefix_rfl
    · next sl _ _ _ s1 hr => have := hrem s sl; rw [hr] at this; exact this
    · next sl _ _ _ s1 hr => have := hrem s sl; rw [hr] at this; exact this
  have hdrop : ∀ (s : Sig.State A) n, (Sig.dropHandle s n).log = s.log := by
    intro s n; simp only [Sig.dropHandle]; split <;> rfl
  have haw : ∀ (s : Sig.State A) n, (Sig.awareReturn s n).log = s.log := by
    intro s n; simp only [Sig.awareReturn]; repeat' split
    all_goals rfl
  simp only [Sig.step] at h
  split at h
  · cases h
  cases a <;> simp only [Sig.body] at h
  · split at h <;> cases h; exact hadd _ _
  · split at h <;> cases h; exact hadd _ _
  · split at h <;> cases h; exact List.prefix_rfl
  · split at h <;> cases h; exact hdis _ _
  · split at h <;> cases h
    simp only [Sig.reconnect]
    split
    · split
      · split
        · next hu => simp only [Sig.addUnique] at hu; split at hu <;> cases hu; exact hadd _ _
        · next hu => simp only [Sig.addUnique] at hu; split at hu <;> cases hu; exact List.prefix_rfl
      · exact List.prefix_rfl
    · exact List.prefix_rfl
  · split at h <;> cases h; rw [hdrop]; exact List.prefix_rfl
  · split at h <;> cases h; rw [hdrop]; split
    · exact hdis _ _
    · exact List.prefix_rfl
  · split at h
    · split at h <;> cases h
      · exact List.prefix_rfl
      · exact ⟨_, rfl⟩
    · cases h
  · repeat' split at h
    all_goals cases h
    · exact List.prefix_rfl
    · exact List.prefix_rfl
    · exact ⟨_, rfl⟩
  · repeat' split at h
    all_goals cases h
    · exact ⟨_, rfl⟩
    · exact List.prefix_rfl
    · exact ⟨_, rfl⟩
  · repeat' split at h
    all_goals cases h
    next a i t sl _ => exact ⟨[.returned t], by simp⟩
  · repeat' split at h
    all_goals cases h
    · exact List.prefix_rfl
    · exact ⟨_, rfl⟩

theorem sigStep_spec {s s' : State} {t g : Nat} {a : Sig.Act Msg} (h : sigStep s t g a = some s') :
    ∃ g' es, Sig.step (s.sigs g) a = some g' ∧ g'.log = (s.sigs g).log ++ es ∧
      s' = { s with sigs := upd s.sigs g g', ub := s.ub || g'.ub, log := s.log ++ es.map (.sig t g) } := by
  simp only [sigStep] at h
  split at h
  · cases h
  · next g' hg =>
    cases h
    obtain ⟨es, he⟩ := sig_log_grows hg
    exact ⟨g', es, hg, he.symm, by rw [← he, List.drop_left]⟩

theorem release_spec (s : State) (t g : Nat) :
    release s t g = s ∨ ∃ g' es, Sig.step (s.sigs g) .destroy = some g' ∧ g'.log = (s.sigs g).log ++ es ∧
      (s.map.any (fun p => p.2 == g) || s.refs.any (fun p => p.2 == g)) = false ∧
      release s t g = { s with sigs := upd s.sigs g g', ub := s.ub || g'.ub, log := s.log ++ es.map (.sig t g) } := by
  simp only [release]
  split
  · exact Or.inl rfl
  · next hc =>
    split
    · next s' hs =>
      obtain ⟨g', es, h1, h2, h3⟩ := sigStep_spec hs
      exact Or.inr ⟨g', es, h1, h2, Bool.eq_false_iff.2 hc, h3⟩
    · exact Or.inl rfl

/-- What `release` can do, coarsely. -/
theorem release_eq (s : State) (t g : Nat) :
    ∃ f u es, release s t g = { s with sigs := f, ub := u, log := s.log ++ List.map (Ev.sig t g) es } := by
  rcases release_spec s t g with h | ⟨g', es, _, _, _, h⟩
  · exact ⟨s.sigs, s.ub, [], by rw [h]; simp⟩
  · exact ⟨_, _, es, h⟩

/-- Coarse form of a signal step. -/
theorem sigStep_eq {s s' : State} {t g : Nat} {a : Sig.Act Msg} (h : sigStep s t g a = some s') :
    ∃ f u es, s' = { s with sigs := f, ub := u, log := s.log ++ List.map (Ev.sig t g) es } := by
  obtain ⟨g', es, _, _, h⟩ := sigStep_spec h
  exact ⟨_, _, es, h⟩

theorem run_append (s : State) (as bs : List Act) :
    run s (as ++ bs) = (run s as).bind fun s' => run s' bs := by
  induction as generalizing s with
  | nil => rfl
  | cons a as ih =>
    simp only [List.cons_append, run]
    cases step s a with
    | none => rfl
    | some s' => simpa using ih s'

/-- Induction over runs. -/
theorem run_inv (P : State → Prop) (h0 : P init) (hstep : ∀ s a s', P s → step s a = some s' → P s')
    (acts : List Act) (s : State) (h : run init acts = some s) : P s := by
  suffices ∀ (acts : List Act) (s0 s : State), P s0 → run s0 acts = some s → P s from this acts init s h0 h
  intro acts
  induction acts with
  | nil => intro s0 s hp hr; cases hr; exact hp
  | cons a as ih =>
    intro s0 s hp hr
    simp only [run] at hr
    cases hs : step s0 a with
    | none => rw [hs] at hr; cases hr
    | some s1 => rw [hs] at hr; exact ih s1 s (hstep _ _ _ hp hs) hr

theorem step_body {s s' : State} {a : Act} (h : step s a = some s') : s.ub = false ∧ body s a = some s' := by
  simp only [step] at h
  split at h
  · cases h
  · next hu => exact ⟨by simpa using hu, h⟩

/-! ### Reading logs -/

@[simp] theorem fm_none {α β : Type} (l : List α) : l.filterMap (fun _ => (none : Option β)) = [] := by simp

@[simp] theorem entries_append (a b : List Ev) : entries (a ++ b) = entries a ++ entries b := by simp [entries]
@[simp] theorem entries_sig (t g : Nat) (l : List (Sig.Ev Msg)) : entries (l.map (Ev.sig t g)) = [] := by simp [entries]
@[simp] theorem exits_append (a b : List Ev) : exits (a ++ b) = exits a ++ exits b := by simp [exits]
@[simp] theorem exits_sig (t g : Nat) (l : List (Sig.Ev Msg)) : exits (l.map (Ev.sig t g)) = [] := by simp [exits]
@[simp] theorem acceptedBy_append (t : Tid) (a b : List Ev) : acceptedBy t (a ++ b) = acceptedBy t a ++ acceptedBy t b := by simp [acceptedBy]
@[simp] theorem acceptedBy_sig (t u g : Nat) (l : List (Sig.Ev Msg)) : acceptedBy t (l.map (Ev.sig u g)) = [] := by simp [acceptedBy]
@[simp] theorem acceptedBy_cleared (t : Nat) (l : List Work) : acceptedBy t (l.map Ev.cleared) = [] := by simp [acceptedBy]
@[simp] theorem enteredBy_append (t : Tid) (a b : List Ev) : enteredBy t (a ++ b) = enteredBy t a ++ enteredBy t b := by simp [enteredBy]
@[simp] theorem enteredBy_sig (t u g : Nat) (l : List (Sig.Ev Msg)) : enteredBy t (l.map (Ev.sig u g)) = [] := by simp [enteredBy]
@[simp] theorem enteredBy_cleared (t : Nat) (l : List Work) : enteredBy t (l.map Ev.cleared) = [] := by simp [enteredBy]
@[simp] theorem beganBy_append (t : Tid) (a b : List Ev) : beganBy t (a ++ b) = beganBy t a ++ beganBy t b := by simp [beganBy]
@[simp] theorem beganBy_sig (t u g : Nat) (l : List (Sig.Ev Msg)) : beganBy t (l.map (Ev.sig u g)) = [] := by simp [beganBy]
@[simp] theorem beganBy_cleared (t : Nat) (l : List Work) : beganBy t (l.map Ev.cleared) = [] := by simp [beganBy]
@[simp] theorem ranBy_append (t : Tid) (a b : List Ev) : ranBy t (a ++ b) = ranBy t a ++ ranBy t b := by simp [ranBy]
@[simp] theorem ranBy_sig (t u g : Nat) (l : List (Sig.Ev Msg)) : ranBy t (l.map (Ev.sig u g)) = [] := by simp [ranBy]
@[simp] theorem ranBy_cleared (t : Nat) (l : List Work) : ranBy t (l.map Ev.cleared) = [] := by simp [ranBy]
@[simp] theorem entries_cleared (l : List Work) : entries (l.map Ev.cleared) = [] := by simp [entries]
@[simp] theorem exits_cleared (l : List Work) : exits (l.map Ev.cleared) = l := by
  induction l with
  | nil => rfl
  | cons x l ih => simp [exits] at ih ⊢; exact ih
@[simp] theorem closedOf_append (a b : List Ev) : closedOf (a ++ b) = b.foldl closedStep (closedOf a) := by
  simp [closedOf]
@[simp] theorem depthOf_append (t : Tid) (a b : List Ev) : depthOf t (a ++ b) = b.foldl (depthStep t) (depthOf t a) := by
  simp [depthOf]
@[simp] theorem openWork_append (t : Tid) (a b : List Ev) :
    openWork t (a ++ b) = b.foldl (openStep t) (openWork t a) := by
  simp [openWork]
@[simp] theorem entryOf_append (ty : Ty) (a b : List Ev) : entryOf ty (a ++ b) = b.foldl (entryStep ty) (entryOf ty a) := by
  simp [entryOf]
@[simp] theorem sigLog_append (g : SigId) (a b : List Ev) : sigLog g (a ++ b) = sigLog g a ++ sigLog g b := by
  simp [sigLog]
@[simp] theorem closed_sig (u g : Nat) (l : List (Sig.Ev Msg)) x : (l.map (Ev.sig u g)).foldl closedStep x = x := by
  induction l with
  | nil => rfl
  | cons e l ih => simpa [List.foldl_cons, closedStep] using ih
@[simp] theorem closed_cleared (l : List Work) x : (l.map Ev.cleared).foldl closedStep x = x := by
  induction l with
  | nil => rfl
  | cons e l ih => simpa [List.foldl_cons, closedStep] using ih
@[simp] theorem depth_sig (t : Tid) (u g : Nat) (l : List (Sig.Ev Msg)) x : (l.map (Ev.sig u g)).foldl (depthStep t) x = x := by
  induction l with
  | nil => rfl
  | cons e l ih => simpa [List.foldl_cons, depthStep] using ih
@[simp] theorem depth_cleared (t : Tid) (l : List Work) x : (l.map Ev.cleared).foldl (depthStep t) x = x := by
  induction l with
  | nil => rfl
  | cons e l ih => simpa [List.foldl_cons, depthStep] using ih
@[simp] theorem openw_sig (t : Tid) (u g : Nat) (l : List (Sig.Ev Msg)) x : (l.map (Ev.sig u g)).foldl (openStep t) x = x := by
  induction l with
  | nil => rfl
  | cons e l ih => simpa [List.foldl_cons, openStep] using ih
@[simp] theorem openw_cleared (t : Tid) (l : List Work) x : (l.map Ev.cleared).foldl (openStep t) x = x := by
  induction l with
  | nil => rfl
  | cons e l ih => simpa [List.foldl_cons, openStep] using ih
@[simp] theorem entryw_sig (ty : Ty) (u g : Nat) (l : List (Sig.Ev Msg)) x : (l.map (Ev.sig u g)).foldl (entryStep ty) x = x := by
  induction l with
  | nil => rfl
  | cons e l ih => simpa [List.foldl_cons, entryStep] using ih
@[simp] theorem entryw_cleared (ty : Ty) (l : List Work) x : (l.map Ev.cleared).foldl (entryStep ty) x = x := by
  induction l with
  | nil => rfl
  | cons e l ih => simpa [List.foldl_cons, entryStep] using ih
@[simp] theorem sigLog_sig (g u h : Nat) (l : List (Sig.Ev Msg)) :
    sigLog g (l.map (Ev.sig u h)) = if h = g then l else [] := by
  induction l with
  | nil => simp [sigLog]
  | cons e l ih => by_cases hh : h = g <;> simp [sigLog, hh] at ih ⊢; exact ih
@[simp] theorem sigLog_cleared (g : Nat) (l : List Work) : sigLog g (l.map Ev.cleared) = [] := by simp [sigLog]

/-! ### `release` -/

section
variable (s : State) (t g : Nat)
@[simp] theorem release_q : (release s t g).q = s.q := by
  obtain ⟨f, u, es, h⟩ := release_eq s t g; rw [h]
@[simp] theorem release_closed : (release s t g).closed = s.closed := by
  obtain ⟨f, u, es, h⟩ := release_eq s t g; rw [h]
@[simp] theorem release_mOwner : (release s t g).mOwner = s.mOwner := by
  obtain ⟨f, u, es, h⟩ := release_eq s t g; rw [h]
@[simp] theorem release_map : (release s t g).map = s.map := by
  obtain ⟨f, u, es, h⟩ := release_eq s t g; rw [h]
@[simp] theorem release_emitter : (release s t g).emitter = s.emitter := by
  obtain ⟨f, u, es, h⟩ := release_eq s t g; rw [h]
@[simp] theorem release_refs : (release s t g).refs = s.refs := by
  obtain ⟨f, u, es, h⟩ := release_eq s t g; rw [h]
@[simp] theorem release_nextSig : (release s t g).nextSig = s.nextSig := by
  obtain ⟨f, u, es, h⟩ := release_eq s t g; rw [h]
@[simp] theorem release_nextD : (release s t g).nextD = s.nextD := by
  obtain ⟨f, u, es, h⟩ := release_eq s t g; rw [h]
@[simp] theorem release_stk : (release s t g).stk = s.stk := by
  obtain ⟨f, u, es, h⟩ := release_eq s t g; rw [h]
@[simp] theorem release_tl : (release s t g).tl = s.tl := by
  obtain ⟨f, u, es, h⟩ := release_eq s t g; rw [h]
@[simp] theorem entries_release : entries (release s t g).log = entries s.log := by
  obtain ⟨f, u, es, h⟩ := release_eq s t g; rw [h]; simp
@[simp] theorem exits_release : exits (release s t g).log = exits s.log := by
  obtain ⟨f, u, es, h⟩ := release_eq s t g; rw [h]; simp
@[simp] theorem acceptedBy_release (u : Tid) : acceptedBy u (release s t g).log = acceptedBy u s.log := by
  obtain ⟨f, u, es, h⟩ := release_eq s t g; rw [h]; simp
@[simp] theorem enteredBy_release (u : Tid) : enteredBy u (release s t g).log = enteredBy u s.log := by
  obtain ⟨f, u, es, h⟩ := release_eq s t g; rw [h]; simp
@[simp] theorem beganBy_release (u : Tid) : beganBy u (release s t g).log = beganBy u s.log := by
  obtain ⟨f, u, es, h⟩ := release_eq s t g; rw [h]; simp
@[simp] theorem ranBy_release (u : Tid) : ranBy u (release s t g).log = ranBy u s.log := by
  obtain ⟨f, u, es, h⟩ := release_eq s t g; rw [h]; simp
@[simp] theorem closedOf_release : closedOf (release s t g).log = closedOf s.log := by
  obtain ⟨f, u, es, h⟩ := release_eq s t g; rw [h]; simp
@[simp] theorem depthOf_release (u : Tid) : depthOf u (release s t g).log = depthOf u s.log := by
  obtain ⟨f, u, es, h⟩ := release_eq s t g; rw [h]; simp
@[simp] theorem openWork_release (u : Tid) : openWork u (release s t g).log = openWork u s.log := by
  obtain ⟨f, u, es, h⟩ := release_eq s t g; rw [h]; simp
@[simp] theorem entryOf_release (u : Ty) : entryOf u (release s t g).log = entryOf u s.log := by
  obtain ⟨f, u, es, h⟩ := release_eq s t g; rw [h]; simp
end

set_option hygiene false in
/-- Case analysis of a step `hs : body s a = some s'`. -/
macro "peel" : tactic => `(tactic| (
  cases a <;> simp only [body, setStk, emitLog, endDispatch, endLoop] at hs <;> (repeat' split at hs) <;>
  first
  | (cases hs; done)
  | (obtain ⟨f, u, es, rfl⟩ := sigStep_eq hs; clear hs)
  | (cases hs; obtain ⟨f, u, es, rfl⟩ := sigStep_eq ‹sigStep _ _ _ _ = some _›)
  | cases hs))

/-! ### Queue order -/

theorem fifo_step {s s' : State} {a : Act} (h : entries s.log = exits s.log ++ s.q) (hs : step s a = some s') :
    entries s'.log = exits s'.log ++ s'.q := by
  replace hs := (step_body hs).2
  peel
  all_goals simp [h]
  all_goals simp [entries, exits, Function.comp_def]
  all_goals assumption

/-! ### The stack -/

/-- Is the head of this stack in a run loop? -/
def atLoop : List Frame → Bool
  | .loop .. :: _ => true
  | .leaving _ :: _ => true
  | _ => false

def atUser : List Frame → Bool
  | [] => true
  | f :: _ => f.isUser

/-- Which frame can be on which stack. -/
def fits (f : Frame) (rest : List Frame) : Bool :=
  match f with
  | .taken _ | .code _ | .lookup _ | .willNotify .. | .notifying .. => atLoop rest
  | .handler d m g => rest.head? == some (.notifying d m g)
  | _ => atUser rest

def wf : List Frame → Bool
  | [] => true
  | f :: rest => fits f rest && wf rest

theorem canCall_iff {s : State} {t : Nat} : canCall s t = atUser (s.stk t) := by
  simp only [canCall]; cases s.stk t <;> rfl

theorem wf_step {s s' : State} {a : Act} (h : ∀ t, wf (s.stk t) = true) (hs : step s a = some s') :
    ∀ t, wf (s'.stk t) = true := by
  replace hs := (step_body hs).2
  have key : ∀ (t : Tid) (l : List Frame), wf l = true → ∀ u, wf (upd s.stk t l u) = true := by
    intro t l hl u
    by_cases hu : u = t
    · subst hu; simpa using hl
    · rw [upd_other hu]; exact h u
  have top : ∀ {t f rest}, s.stk t = f :: rest → fits f rest = true ∧ wf rest = true := by
    intro t f rest e; have := h t; rw [e] at this; simpa [wf] using this
  peel
  all_goals try exact h
  all_goals try simp only [release_stk]
  all_goals try (refine key _ _ ?_)
  all_goals first
    | (have h1 := top ‹s.stk _ = _›; simp [wf, fits, atLoop, atUser, Frame.isUser] at h1 ⊢; done)
    | (have h1 := top ‹s.stk _ = _›; simp [wf, fits, atLoop, atUser, Frame.isUser] at h1 ⊢; simp [h1]; done)
    | (simp_all [wf, fits, canCall_iff, atUser, atLoop, Frame.isUser]; done)
    | skip

end Maf.Proc
