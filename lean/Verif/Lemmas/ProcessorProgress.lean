import Verif.Lemmas.ProcessorLocks
/-
The processor: no thread is stuck inside a call for a reason other than a lock or an empty
queue.
-/
namespace Maf.Proc

/-- The signal whose emission loop a thread is at. -/
def topN : List Frame → Option SigId
  | .notifying _ _ g :: _ => some g
  | _ => none

theorem topN_user {l : List Frame} (h : atUser l = true) : topN l = none := by
  cases l with
  | nil => rfl
  | cons f l => cases f <;> simp [atUser, Frame.isUser, topN] at h ⊢
theorem topN_loop {l : List Frame} (h : atLoop l = true) : topN l = none := by
  cases l with
  | nil => rfl
  | cons f l => cases f <;> simp [atLoop, topN] at h ⊢

/-- An emission is in progress exactly while its lock is held; its slot is running unless the
thread is at the emission's loop. -/
def EmOk (s : State) : Prop := ∀ g, match s.emitter g with
  | none => (s.sigs g).emission = none
  | some t => ∃ e, (s.sigs g).emission = some e ∧ (topN (s.stk t) = some g → e.running = none) ∧
      (topN (s.stk t) ≠ some g → ∃ k sl, e.running = some ⟨k, some sl⟩)

def Act.emits : Act → Bool
  | .startNotify _ | .iter _ | .ret _ => true
  | _ => false

theorem release_emission (s : State) (t g h : Nat) : ((release s t g).sigs h).emission = (s.sigs h).emission := by
  rcases release_spec s t g with e | ⟨g', es, h1, h2, h3, e⟩
  · rw [e]
  · rw [e]
    simp only [upd]
    split
    · next e => subst e; obtain ⟨_, _, _, h⟩ := sig_other h1 (by simp); exact h
    · rfl

theorem upd_emission {s : State} {g h : Nat} {a : Sig.Act Msg} {g' : Sig.State Msg} (hs : Sig.step (s.sigs g) a = some g')
    (ha : (∀ m, a ≠ .emit m) ∧ a ≠ .iter ∧ a ≠ .ret) : (upd s.sigs g g' h).emission = (s.sigs h).emission := by
  simp only [upd]
  split
  · next e => subst e; obtain ⟨_, _, _, h⟩ := sig_other hs ha; exact h
  · rfl

theorem handle_quiet {a : Sig.Act Msg} (h : isHandleOp a = true) : (∀ m, a ≠ .emit m) ∧ a ≠ .iter ∧ a ≠ .ret := by
  cases a <;> simp [isHandleOp] at h ⊢

theorem calm {s s' : State} {a : Act} (hw : ∀ t, wf (s.stk t) = true)
    (hop : ∀ t g' b rest, s.stk t = .sigReq g' b :: rest → isHandleOp b = true) (hs : step s a = some s') (ha : a.emits = false) :
    s'.emitter = s.emitter ∧ (∀ g, (s'.sigs g).emission = (s.sigs g).emission) ∧ topN (s'.stk a.tid) = topN (s.stk a.tid) := by
  have top : ∀ {t f rest}, s.stk t = f :: rest → fits f rest = true := by
    intro t f rest e; have := hw t; rw [e] at this; simp [wf] at this; exact this.1
  replace hs := (step_body hs).2
  cases a <;> simp only [Act.emits, Bool.true_eq_false] at ha <;> simp only [body, setStk, emitLog, endDispatch, endLoop] at hs <;> (repeat' split at hs)
  all_goals first
    | (cases hs; done)
    | (obtain ⟨g', es, h1, h2, rfl⟩ := sigStep_spec hs; clear hs)
    | cases hs
  all_goals simp only [Act.tid, release_emitter, release_stk, upd_same, release_emission, true_and]
  all_goals (try have hst := ‹s.stk _ = _›)
  all_goals (try have hcc := ‹¬ canCall s _ = false›; rw [Bool.not_eq_false, canCall_iff] at hcc)
  all_goals (try have hf := top hst; simp only [fits] at hf)
  all_goals (try rw [hst])
  all_goals (try rw [topN_user hcc])
  all_goals (try rw [topN_user hf])
  all_goals (try rw [topN_loop hf])
  all_goals (try (simp [topN]; done))
  all_goals first
    | exact ⟨fun g => upd_emission h1 (handle_quiet (hop _ _ _ _ hst)), by simp [topN]⟩
    | exact ⟨fun g => upd_emission h1 (by simp), by simp [topN]⟩

theorem sig_emit2 {A : Type} {s s' : Sig.State A} {m : A} (h : Sig.step s (.emit m) = some s') (hne : s.slots ≠ []) (hu : s'.ub = false) :
    s'.emission = some ⟨m, 0, none⟩ := by
  simp only [Sig.step, Sig.body, hne, if_false] at h
  split at h
  · cases h
  · split at h
    · split at h
      · cases h; cases hu
      · cases h; rfl
    · cases h

theorem sig_iter2 {A : Type} {s s' : Sig.State A} (h : Sig.step s .iter = some s') :
    s'.emission = none ∨ (∃ e, s'.emission = some e ∧ e.running = none) ∨
    ∃ e k sl, s'.emission = some e ∧ e.running = some ⟨k, some sl⟩ := by
  simp only [Sig.step, Sig.body] at h
  split at h
  · cases h
  · split at h
    · next a i he =>
      split at h
      · cases h; exact Or.inl rfl
      · cases h; exact Or.inr (Or.inl ⟨_, he, rfl⟩)
      · next t sl _ => cases h; exact Or.inr (Or.inr ⟨_, t, sl, rfl, rfl⟩)
    · cases h

theorem sig_ret2 {A : Type} {s s' : Sig.State A} (h : Sig.step s .ret = some s') :
    ∃ e, s'.emission = some e ∧ e.running = none := by
  simp only [Sig.step, Sig.body] at h
  split at h
  · cases h
  · split at h
    · cases h; exact ⟨_, rfl, rfl⟩
    · cases h

theorem EmOk_step {s s' : State} {a : Act} (hf : Full s) (hem : EmI s.stk s.emitter) (h : EmOk s) (hs : step s a = some s')
    (hu : s'.ub = false) : EmOk s' := by
  have hdi := hf.di (step_body hs).1
  have hw := hf.base.wf
  have hoth := (step_other hs).1
  have top : ∀ {t f rest}, s.stk t = f :: rest → fits f rest = true := by
    intro t f rest e; have := hw t; rw [e] at this; simp [wf] at this; exact this.1
  cases hae : a.emits with
  | false =>
    obtain ⟨h1, h2, h3⟩ := calm hw hf.ops hs hae
    intro g
    have hg := h g
    rw [h1, h2]
    split
    · next e => rw [e] at hg; exact hg
    · next t e =>
      rw [e] at hg
      by_cases ht : t = a.tid
      · subst ht; rw [h3]; exact hg
      · rw [(hoth t ht).1]; exact hg
  | true =>
    -- what the other threads see
    have hrest : ∀ g, (∀ t, s.emitter g = some t → t ≠ a.tid ∨ topN (s'.stk t) = topN (s.stk t) ∨ (topN (s.stk t) ≠ some g ∧ topN (s'.stk t) ≠ some g)) →
        (s'.sigs g).emission = (s.sigs g).emission → s'.emitter g = s.emitter g →
        match s'.emitter g with
        | none => (s'.sigs g).emission = none
        | some t => ∃ e, (s'.sigs g).emission = some e ∧ (topN (s'.stk t) = some g → e.running = none) ∧
          (topN (s'.stk t) ≠ some g → ∃ k sl, e.running = some ⟨k, some sl⟩) := by
      intro g ht he hg
      have h0 := h g
      rw [hg, he]
      split
      · next e => rw [e] at h0; exact h0
      · next t e =>
        rw [e] at h0
        obtain ⟨x, hx, hx1, hx2⟩ := h0
        rcases ht t e with ht | ht | ⟨ht, ht'⟩
        · rw [(hoth t ht).1]; exact ⟨x, hx, hx1, hx2⟩
        · rw [ht]; exact ⟨x, hx, hx1, hx2⟩
        · exact ⟨x, hx, fun hc => absurd hc ht', fun _ => hx2 ht⟩
    have hs0 := hs
    replace hs := (step_body hs).2
    cases a <;> simp only [Act.emits, Bool.false_eq_true] at hae
    case startNotify t =>
      simp only [body] at hs
      split at hs
      · next d m g rest hst =>
        have hr := topN_loop (top hst)
        split at hs
        · cases hs
        · split at hs
          · cases hs
            intro h'
            refine hrest h' (fun u hu' => ?_) ?_ ?_
            · by_cases hut : u = t
              · subst hut; right; left
                simp only [endDispatch, emitLog, upd_same, hst, hr]; rfl
              · exact Or.inl hut
            · simp only [endDispatch, emitLog, release_emission]
            · simp only [endDispatch, emitLog, release_emitter]
          · next hne =>
            obtain ⟨g2, es, h1, h2, rfl⟩ := sigStep_spec hs
            have hu2 : g2.ub = false := by simp at hu; exact hu.2
            intro h'
            by_cases hg : h' = g
            · subst hg
              simp only [upd_same, emitLog, setStk]
              exact ⟨_, sig_emit2 h1 hne hu2, fun _ => rfl, fun hc => absurd rfl hc⟩
            · refine hrest h' (fun u hu' => ?_) ?_ ?_
              · by_cases hut : u = t
                · subst hut; right; right
                  simp [setStk, emitLog, hst, topN, Ne.symm hg]
                · exact Or.inl hut
              · simp only [emitLog, setStk, upd_other hg]
              · simp only [emitLog, setStk, upd_other hg]
      · cases hs
    case iter t =>
      simp only [body] at hs
      split at hs
      · next d m g rest hst =>
        have hr := topN_loop (top hst)
        have hemt : s.emitter g = some t := (hdi.noti t d m g (by rw [hst]; exact List.mem_cons_self)).2.2
        split at hs
        · cases hs
        · next s1 hs1 =>
          obtain ⟨g2, es, h1, h2, rfl⟩ := sigStep_spec hs1
          have h3 := sig_iter2 h1
          simp only [upd_same] at hs
          split at hs
          · next hn =>
            cases hs
            intro h'
            by_cases hg : h' = g
            · subst hg
              simp only [endDispatch, emitLog, release_emitter, release_emission, upd_same]
              exact hn
            · refine hrest h' (fun u hu' => ?_) ?_ ?_
              · by_cases hut : u = t
                · subst hut; right; right
                  simp only [endDispatch, emitLog, upd_same, hst, hr]; simp [topN, Ne.symm hg]
                · exact Or.inl hut
              · simp only [endDispatch, emitLog, release_emission, upd_other hg]
              · simp only [endDispatch, emitLog, release_emitter, upd_other hg]
          · next e hn =>
            split at hs
            · next hrun =>
              cases hs
              intro h'
              by_cases hg : h' = g
              · subst hg
                simp only [setStk, upd_same, hemt]
                refine ⟨e, hn, by simp [topN], fun _ => ?_⟩
                rcases h3 with h3 | ⟨e', h3, h4⟩ | ⟨e', k, sl, h3, h4⟩
                · rw [hn] at h3; cases h3
                · rw [hn] at h3; cases h3; rw [h4] at hrun; cases hrun
                · rw [hn] at h3; cases h3; exact ⟨k, sl, h4⟩
              · refine hrest h' (fun u hu' => ?_) ?_ ?_
                · by_cases hut : u = t
                  · subst hut; right; right
                    simp [setStk, hst, topN, Ne.symm hg]
                  · exact Or.inl hut
                · simp only [setStk, upd_other hg]
                · simp only [setStk]
            · next hrun =>
              cases hs
              intro h'
              by_cases hg : h' = g
              · subst hg
                simp only [upd_same, hemt, hst, topN]
                refine ⟨e, hn, fun _ => by simpa using hrun, by simp⟩
              · refine hrest h' (fun u hu' => Or.inr (Or.inl rfl)) ?_ rfl
                simp only [upd_other hg]
      · cases hs
    case ret t =>
      simp only [body] at hs
      split at hs
      · next n rest hst =>
        cases hs
        intro h'
        refine hrest h' (fun u hu' => ?_) rfl rfl
        by_cases hut : u = t
        · subst hut; right; left
          simp only [setStk, emitLog, upd_same, hst, topN_loop (top hst)]; rfl
        · exact Or.inl hut
      · next n rest hst =>
        cases hs
        intro h'
        refine hrest h' (fun u hu' => ?_) rfl rfl
        by_cases hut : u = t
        · subst hut; right; left
          simp only [setStk, emitLog, upd_same, hst, topN_user (top hst)]; rfl
        · exact Or.inl hut
      · next d m g rest hst =>
        have hfit := top hst
        obtain ⟨g2, es, h1, h2, rfl⟩ := sigStep_spec hs
        have hr : topN rest = some g := by
          simp only [fits] at hfit
          cases rest with
          | nil => simp at hfit
          | cons f r => simp at hfit; subst hfit; rfl
        have hmem : Frame.notifying d m g ∈ s.stk t := by
          simp only [fits] at hfit
          cases rest with
          | nil => simp at hfit
          | cons f r => simp at hfit; subst hfit; rw [hst]; simp
        have hemt : s.emitter g = some t := (hdi.noti t d m g hmem).2.2
        intro h'
        by_cases hg : h' = g
        · subst hg
          simp only [setStk, upd_same, hemt, hr]
          obtain ⟨e, h3, h4⟩ := sig_ret2 h1
          exact ⟨e, h3, fun _ => h4, by simp⟩
        · refine hrest h' (fun u hu' => ?_) ?_ rfl
          · by_cases hut : u = t
            · subst hut; right; right
              simp only [setStk, upd_same, hst, hr]; simp [topN, Ne.symm hg]
            · exact Or.inl hut
          · simp only [setStk, upd_other hg]
      · cases hs

/-! ### Handler objects that are used exist -/

/-- Both exist or neither; the same connection-aware slots. -/
def Sim {A : Type} (s s' : Sig.State A) : Prop := s'.alive = s.alive ∧ s'.aware = s.aware

theorem remove_sim {A : Type} (s : Sig.State A) (sl : Nat) : Sim s (Sig.remove s sl).1 := by
  simp only [Sig.remove]; repeat' split
  all_goals exact ⟨rfl, rfl⟩

theorem disconnect_sim {A : Type} (s : Sig.State A) (n : Nat) : Sim s (Sig.disconnect s n).1 := by
  simp only [Sig.disconnect]
  repeat' split
  all_goals first
    | exact ⟨rfl, rfl⟩
    | (next sl _ _ _ s1 hr => have := remove_sim s sl; rw [hr] at this; exact this)

theorem drop_sim {A : Type} (s : Sig.State A) (n : Nat) : Sim s (Sig.dropHandle s n) := by
  simp only [Sig.dropHandle]; split <;> exact ⟨rfl, rfl⟩

theorem aware_sim {A : Type} (s : Sig.State A) (n : Nat) : Sim s (Sig.awareReturn s n) := by
  simp only [Sig.awareReturn]; repeat' split
  all_goals exact ⟨rfl, rfl⟩

theorem reconnect_sim {A : Type} (s : Sig.State A) (n : Nat) : Sim s (Sig.reconnect s n).1 := by
  simp only [Sig.reconnect]
  split
  · split
    · split
      · next hu => simp only [Sig.addUnique] at hu; split at hu <;> cases hu; exact ⟨rfl, rfl⟩
      · next hu => simp only [Sig.addUnique] at hu; split at hu <;> cases hu; exact ⟨rfl, rfl⟩
    · exact ⟨rfl, rfl⟩
  · exact ⟨rfl, rfl⟩

theorem sig_sim {A : Type} {s s' : Sig.State A} {a : Sig.Act A} (h : Sig.step s a = some s') (ha : a ≠ .destroy)
    (hc : a ≠ .connectAware) : Sim s s' := by
  simp only [Sig.step] at h
  split at h
  · cases h
  cases a <;> simp only [Sig.body] at h
  all_goals repeat' split at h
  all_goals try (cases h; done)
  all_goals try cases h
  all_goals first
    | exact ⟨rfl, rfl⟩
    | exact absurd rfl ha
    | exact absurd rfl hc
    | exact disconnect_sim _ _
    | exact reconnect_sim _ _
    | exact drop_sim _ _
    | exact ⟨(drop_sim _ _).1.trans (disconnect_sim _ _).1, (drop_sim _ _).2.trans (disconnect_sim _ _).2⟩
    | exact aware_sim s _

theorem sig_destroy {A : Type} {s s' : Sig.State A} (h : Sig.step s .destroy = some s') : s'.aware = s.aware := by
  simp only [Sig.step, Sig.body] at h
  repeat' split at h
  all_goals cases h <;> rfl

structure Life (f : SigId → Sig.State Msg) (n : SigId) (map : List (Ty × SigId)) (refs : List (Nat × SigId)) : Prop where
  noub : ∀ g, (f g).ub = false
  plain : ∀ g, (f g).aware = []
  fresh : ∀ g, n ≤ g → f g = Sig.init Msg
  map : ∀ ty g, (ty, g) ∈ map → g < n ∧ (f g).alive = true
  refs : ∀ d g, (d, g) ∈ refs → g < n ∧ (f g).alive = true

theorem Life.sig {f : SigId → Sig.State Msg} {n g : Nat} {map : List (Ty × SigId)} {refs : List (Nat × SigId)} {a : Sig.Act Msg} {g' : Sig.State Msg}
    (h : Life f n map refs) (hs : Sig.step (f g) a = some g') (hu : g'.ub = false) (hn : g < n) (ha : a ≠ .destroy)
    (hc : a ≠ .connectAware) : Life (upd f g g') n map refs := by
  obtain ⟨h1, h2⟩ := sig_sim hs ha hc
  have key : ∀ g0, (upd f g g' g0).alive = (f g0).alive := by
    intro g0
    by_cases e : g0 = g
    · subst e; rw [upd_same]; exact h1
    · rw [upd_other e]
  refine ⟨fun g0 => ?_, fun g0 => ?_, fun g0 h0 => ?_, fun ty g0 h0 => ?_, fun ty g0 h0 => ?_⟩
  · by_cases e : g0 = g
    · subst e; rw [upd_same]; exact hu
    · rw [upd_other e]; exact h.noub g0
  · by_cases e : g0 = g
    · subst e; rw [upd_same, h2]; exact h.plain g0
    · rw [upd_other e]; exact h.plain g0
  · rw [upd_other (fun e => by subst e; exact Nat.lt_irrefl _ (Nat.lt_of_lt_of_le hn h0))]; exact h.fresh g0 h0
  · rw [key]; exact h.map ty g0 h0
  · rw [key]; exact h.refs ty g0 h0

theorem Life.sub {f : SigId → Sig.State Msg} {n : Nat} {map map' : List (Ty × SigId)} {refs refs' : List (Nat × SigId)}
    (h : Life f n map refs) (hm : ∀ p ∈ map', p ∈ map) (hr : ∀ p ∈ refs', p ∈ refs) : Life f n map' refs' :=
  ⟨h.noub, h.plain, h.fresh, fun _ _ h0 => h.map _ _ (hm _ h0), fun _ _ h0 => h.refs _ _ (hr _ h0)⟩

theorem Life.rel {s : State} {t g : Nat} (h : Life s.sigs s.nextSig s.map s.refs) (hu : (release s t g).ub = false) (hn : g < s.nextSig) :
    Life (release s t g).sigs s.nextSig s.map s.refs := by
  rcases release_spec s t g with e | ⟨g', es, h1, h2, h3, e⟩
  · rw [e]; exact h
  · rw [e] at hu ⊢
    simp only [Bool.or_eq_false_iff, List.any_eq_false, beq_iff_eq] at hu h3
    simp only
    have hd := sig_destroy h1
    refine ⟨fun g0 => ?_, fun g0 => ?_, fun g0 h0 => ?_, fun ty g0 h0 => ?_, fun ty g0 h0 => ?_⟩
    · by_cases e : g0 = g
      · subst e; rw [upd_same]; exact hu.2
      · rw [upd_other e]; exact h.noub g0
    · by_cases e : g0 = g
      · subst e; rw [upd_same, hd]; exact h.plain g0
      · rw [upd_other e]; exact h.plain g0
    · rw [upd_other (fun e => by subst e; exact Nat.lt_irrefl _ (Nat.lt_of_lt_of_le hn h0))]; exact h.fresh g0 h0
    · rw [upd_other (fun e => h3.1 _ h0 e)]; exact h.map ty g0 h0
    · rw [upd_other (fun e => h3.2 _ h0 e)]; exact h.refs ty g0 h0

theorem proc_unique {l : List Ev} (h : Hist EvOk l) {t t' : Tid} {d : Nat} {m m' : Msg} {o o' : Option SigId}
    (h1 : Ev.processing t d m o ∈ l) (h2 : Ev.processing t' d m' o' ∈ l) : t = t' := by
  obtain ⟨a, b, rfl⟩ := List.append_of_mem h1
  obtain ⟨a', b', he⟩ := List.append_of_mem h2
  have r1 := (h.all a _ b rfl).2
  have r2 := (h.all a' _ b' he).2
  rcases List.append_eq_append_iff.1 he with ⟨z, hz1, hz2⟩ | ⟨z, hz1, hz2⟩
  · cases z with
    | nil => simp at hz2; exact hz2.1.1
    | cons e z =>
      rw [List.cons_append] at hz2
      injection hz2 with hz2 hz3
      exact absurd (by rw [hz1, ← hz2]; simp) (r2 t m o)
  · cases z with
    | nil => simp at hz2; exact hz2.1.1.symm
    | cons e z =>
      rw [List.cons_append] at hz2
      injection hz2 with hz2 hz3
      exact absurd (by rw [hz1, ← hz2]; simp) (r1 t' m' o')

/-- Frames refer to what exists. -/
structure Refer (stk : Tid → List Frame) (n : SigId) (refs : List (Nat × SigId)) : Prop where
  will : ∀ t d m g rest, stk t = .willNotify d m g :: rest → (d, g) ∈ refs
  req : ∀ t g a rest, stk t = .sigReq g a :: rest → g < n

theorem Life.lt {f : SigId → Sig.State Msg} {n g : Nat} {map : List (Ty × SigId)} {refs : List (Nat × SigId)} {a : Sig.Act Msg} {g' : Sig.State Msg}
    (h : Life f n map refs) (hs : Sig.step (f g) a = some g') (ha : a = .ret ∨ a = .iter) : g < n := by
  refine Nat.lt_of_not_le fun hn => ?_
  rw [h.fresh g hn] at hs
  rcases ha with rfl | rfl <;> cases hs

/-- A change of state that `Life` does not see, then a release. -/
theorem Life.rel' {s s0 : State} {t g : Nat} (h : Life s.sigs s.nextSig s.map s.refs) (h1 : s0.sigs = s.sigs) (h2 : s0.nextSig = s.nextSig)
    (hm : ∀ p ∈ s0.map, p ∈ s.map) (hr : ∀ p ∈ s0.refs, p ∈ s.refs) (hu : (release s0 t g).ub = false) (hn : g < s.nextSig) :
    Life (release s0 t g).sigs (release s0 t g).nextSig (release s0 t g).map (release s0 t g).refs := by
  rw [release_nextSig, release_map, release_refs]
  refine Life.rel ?_ hu (by rw [h2]; exact hn)
  rw [h1, h2]
  exact h.sub hm hr

theorem Life_step {s s' : State} {a : Act} (h : Life s.sigs s.nextSig s.map s.refs) (hr : Refer s.stk s.nextSig s.refs)
    (hop : Ops s.stk) (hs : step s a = some s') (hu : s'.ub = false) : Life s'.sigs s'.nextSig s'.map s'.refs := by
  replace hs := (step_body hs).2
  have herase : ∀ x : Nat × SigId, ∀ p ∈ s.refs.erase x, p ∈ s.refs := fun x p hp => List.mem_of_mem_erase hp
  have hfil : ∀ ty : Ty, ∀ p ∈ s.map.filter (fun p => p.1 != ty), p ∈ s.map := fun ty p hp => (List.mem_filter.1 hp).1
  cases a
  case ret t =>
    simp only [body] at hs
    split at hs
    · cases hs; exact h
    · cases hs; exact h
    · obtain ⟨g', es, h1, h2, rfl⟩ := sigStep_spec hs
      simp only [Bool.or_eq_false_iff] at hu
      exact h.sig h1 hu.2 (h.lt h1 (Or.inl rfl)) (by simp) (by simp)
    · cases hs
  case find t =>
    simp only [body] at hs
    split at hs
    · next m rest hst =>
      split at hs
      · cases hs
      · split at hs
        · cases hs; exact h
        · next g hg =>
          cases hs
          refine ⟨h.noub, h.plain, h.fresh, h.map, ?_⟩
          intro d0 g0 h0
          rcases List.mem_cons.1 h0 with e | h0
          · cases e; exact h.map _ _ (lookup_mem hg)
          · exact h.refs _ _ h0
    · cases hs
  case startNotify t =>
    simp only [body] at hs
    split at hs
    · next d m g rest hst =>
      have hg := (h.refs _ _ (hr.will _ _ _ _ _ hst)).1
      split at hs
      · cases hs
      · split at hs
        · cases hs
          exact h.rel' (s0 := { emitLog s [.skipped t d] with refs := s.refs.erase (d, g) }) rfl rfl (fun p hp => hp) (herase _) hu hg
        · obtain ⟨g', es, h1, h2, rfl⟩ := sigStep_spec hs
          simp only [Bool.or_eq_false_iff] at hu
          exact h.sig h1 hu.2 hg (by simp) (by simp)
    · cases hs
  case iter t =>
    simp only [body] at hs
    split at hs
    · next d m g rest hst =>
      split at hs
      · cases hs
      · next s1 hs1 =>
        obtain ⟨g', es, h1, h2, rfl⟩ := sigStep_spec hs1
        have hg := h.lt h1 (Or.inr rfl)
        simp only at hs
        split at hs
        · cases hs
          have hu1 : g'.ub = false := by
            simp only [endDispatch] at hu
            cases hx : g'.ub with
            | false => rfl
            | true =>
              exfalso
              rcases release_spec { emitLog { s with sigs := upd s.sigs g g', ub := s.ub || g'.ub, log := s.log ++ es.map (.sig t g) } [.emitEnd t d]
                with emitter := upd s.emitter g none, refs := s.refs.erase (d, g) } t g with e | ⟨_, _, _, _, _, e⟩
              · simp only [emitLog] at e hu; rw [e] at hu; simp [hx] at hu
              · simp only [emitLog] at e hu; rw [e] at hu; simp [hx] at hu
          exact (h.sig h1 hu1 hg (by simp) (by simp)).rel'
            (s := { s with sigs := upd s.sigs g g', ub := s.ub || g'.ub, log := s.log ++ es.map (.sig t g) })
            (s0 := { emitLog { s with sigs := upd s.sigs g g', ub := s.ub || g'.ub, log := s.log ++ es.map (.sig t g) } [.emitEnd t d]
                with emitter := upd s.emitter g none, refs := s.refs.erase (d, g) }) rfl rfl (fun p hp => hp) (herase _) hu hg
        · split at hs
          · cases hs
            simp only [setStk, Bool.or_eq_false_iff] at hu
            exact h.sig h1 hu.2 hg (by simp) (by simp)
          · cases hs
            simp only [Bool.or_eq_false_iff] at hu
            exact h.sig h1 hu.2 hg (by simp) (by simp)
    · cases hs
  case doConnect t =>
    simp only [body] at hs
    split at hs
    · next ty rest hst =>
      split at hs
      · next g hg =>
        split at hs
        · obtain ⟨g', es, h1, h2, rfl⟩ := sigStep_spec hs
          simp only [Bool.or_eq_false_iff] at hu
          exact h.sig h1 hu.2 (h.map _ _ (lookup_mem hg)).1 (by simp) (by simp)
        · cases hs
      · obtain ⟨g', es, h1, h2, rfl⟩ := sigStep_spec hs
        simp only [Bool.or_eq_false_iff] at hu
        refine Life.sig ?_ h1 hu.2 (Nat.lt_succ_self _) (by simp) (by simp)
        refine ⟨h.noub, h.plain, fun g hg => h.fresh g (Nat.le_of_succ_le hg), fun ty0 g0 h0 => ?_, fun d g0 h0 => ?_⟩
        · rcases List.mem_append.1 h0 with h0 | h0
          · exact ⟨Nat.lt_succ_of_lt (h.map _ _ h0).1, (h.map _ _ h0).2⟩
          · rw [List.mem_singleton] at h0; cases h0
            exact ⟨Nat.lt_succ_self _, by simp only [emitLog, setStk]; rw [h.fresh _ (Nat.le_refl _)]; rfl⟩
        · exact ⟨Nat.lt_succ_of_lt (h.refs _ _ h0).1, (h.refs _ _ h0).2⟩
    · cases hs
  case lockDisconnect t =>
    simp only [body] at hs
    split at hs
    · next ty rest hst =>
      split at hs
      · cases hs
      · split at hs
        · cases hs; exact h.sub (hfil _) (fun p hp => hp)
        · next g hg =>
          cases hs
          refine h.rel' ?_ ?_ ?_ ?_ hu (h.map _ _ (lookup_mem hg)).1
          · rfl
          · rfl
          · exact hfil _
          · exact fun p hp => hp
    · cases hs
  case cleanupStep t =>
    simp only [body] at hs
    split at hs
    · cases hs; exact h
    · split at hs
      · cases hs; exact h
      · next g hg =>
        split at hs
        · cases hs
        · split at hs
          · cases hs
            refine h.rel' ?_ ?_ ?_ ?_ hu (h.map _ _ (lookup_mem hg)).1
            · rfl
            · rfl
            · exact hfil _
            · exact fun p hp => hp
          · cases hs; exact h
    · cases hs
  case doSig t =>
    simp only [body] at hs
    split at hs
    · next g a rest hst =>
      split at hs
      · obtain ⟨g', es, h1, h2, rfl⟩ := sigStep_spec hs
        simp only [Bool.or_eq_false_iff] at hu
        have ho := hop _ _ _ _ hst
        exact h.sig h1 hu.2 (hr.req _ _ _ _ hst) (by rintro rfl; cases ho) (by rintro rfl; cases ho)
      · cases hs
    · cases hs
  all_goals (
    simp only [body, setStk, emitLog, endLoop] at hs
    repeat' split at hs
    all_goals (cases hs; try exact h))

def isPlain : List Frame → Bool
  | .willNotify .. :: _ => false
  | .sigReq .. :: _ => false
  | _ => true

theorem plain_user {l : List Frame} (h : atUser l = true) : isPlain l = true := by
  cases l with
  | nil => rfl
  | cons f l => cases f <;> simp [atUser, Frame.isUser, isPlain] at h ⊢
theorem plain_loop {l : List Frame} (h : atLoop l = true) : isPlain l = true := by
  cases l with
  | nil => rfl
  | cons f l => cases f <;> simp [atLoop, isPlain] at h ⊢
theorem plain_notif {l : List Frame} {d : Nat} {m : Msg} {g : SigId} (h : (l.head? == some (Frame.notifying d m g)) = true) :
    isPlain l = true := by
  cases l with
  | nil => rfl
  | cons f l => simp at h; subst h; rfl

theorem nextSig_grows {s s' : State} {a : Act} (hs : step s a = some s') : s.nextSig ≤ s'.nextSig := by
  replace hs := (step_body hs).2
  peel
  all_goals simp only [release_nextSig]
  all_goals first | exact Nat.le_refl _ | exact Nat.le_succ _

/-- What a step does to a thread's own stack, as far as `Refer` is concerned. -/
theorem own_top {s s' : State} {a : Act} (hw : ∀ t, wf (s.stk t) = true) (hs : step s a = some s') :
    isPlain (s'.stk a.tid) = true ∨ (s'.stk a.tid = s.stk a.tid ∧ s'.refs = s.refs) ∨
    (∃ d m g rest, s'.stk a.tid = .willNotify d m g :: rest ∧ (d, g) ∈ s'.refs) ∨
    ∃ g b rest, s'.stk a.tid = .sigReq g b :: rest ∧ g < s.nextSig := by
  have top : ∀ {t f rest}, s.stk t = f :: rest → fits f rest = true := by
    intro t f rest e; have := hw t; rw [e] at this; simp [wf] at this; exact this.1
  replace hs := (step_body hs).2
  peel
  all_goals simp only [Act.tid, release_stk, release_refs, upd_same]
  all_goals (try have hst := ‹s.stk _ = _›)
  all_goals (try have hf := top hst; simp only [fits] at hf)
  all_goals first
    | exact Or.inl rfl
    | exact Or.inl (plain_user hf)
    | exact Or.inl (plain_loop hf)
    | exact Or.inl (plain_notif hf)
    | exact Or.inr (Or.inl ⟨rfl, rfl⟩)
    | exact Or.inr (Or.inl ⟨trivial, trivial⟩)
    | exact Or.inr (Or.inr (Or.inl ⟨_, _, _, _, rfl, List.mem_cons_self⟩))
    | exact Or.inr (Or.inr (Or.inr ⟨_, _, _, rfl, Nat.lt_of_not_le (fun hn => ‹¬_› (Or.inr hn))⟩))

theorem erase_or {p q : Nat × SigId} {l : List (Nat × SigId)} (h : p ∈ l) : p ∈ l.erase q ∨ p = q := by
  by_cases e : p = q
  · exact Or.inr e
  · exact Or.inl ((List.mem_erase_of_ne e).2 h)

/-- Which references a step takes away: the one of a dispatch of its own thread. -/
theorem refs_gone {s s' : State} {a : Act} (hdi : DI s.stk s.sigs s.emitter s.log) (hs : step s a = some s') (p : Nat × SigId) (hp : p ∈ s.refs) :
    p ∈ s'.refs ∨ ∃ m o, Ev.processing a.tid p.1 m o ∈ s.log := by
  replace hs := (step_body hs).2
  peel
  all_goals simp only [Act.tid, release_refs]
  all_goals try exact Or.inl hp
  all_goals try exact Or.inl (List.mem_cons_of_mem _ hp)
  all_goals have hst := ‹s.stk _ = _›
  · exact (erase_or hp).imp id fun e => by
      obtain ⟨l1, x, hl, -⟩ := hdi.will _ _ _ _ _ hst
      subst e
      exact ⟨_, _, by rw [hl]; exact List.mem_append_right _ List.mem_cons_self⟩
  · exact (erase_or hp).imp id fun e => by
      obtain ⟨⟨l1, x, y, w, hl, -⟩, -⟩ := hdi.noti _ _ _ _ (by rw [hst]; exact List.mem_cons_self)
      subst e
      exact ⟨_, _, by rw [hl]; exact List.mem_append_left _ (List.mem_append_right _ List.mem_cons_self)⟩

theorem Refer_step {s s' : State} {a : Act} (hf : Full s) (h : Refer s.stk s.nextSig s.refs) (hs : step s a = some s') :
    Refer s'.stk s'.nextSig s'.refs := by
  have hdi := hf.di (step_body hs).1
  have hoth := (step_other hs).1
  have hn := nextSig_grows hs
  have hown := own_top hf.base.wf hs
  refine ⟨?_, ?_⟩
  · intro t d m g rest hst
    by_cases ht : t = a.tid
    · subst ht
      rw [hst] at hown
      rcases hown with e | ⟨e, er⟩ | ⟨d', m', g', r', e, hm⟩ | ⟨_, _, _, e, _⟩
      · cases e
      · rw [er]; exact h.will _ _ _ _ _ e.symm
      · cases e; exact hm
      · cases e
    · rw [(hoth t ht).1] at hst
      rcases refs_gone hdi hs _ (h.will _ _ _ _ _ hst) with h0 | ⟨m', o, h0⟩
      · exact h0
      · exfalso
        obtain ⟨l1, x, hl, -⟩ := hdi.will _ _ _ _ _ hst
        exact ht (proc_unique hf.base.hist (by rw [hl]; exact List.mem_append_right _ List.mem_cons_self) h0)
  · intro t g b rest hst
    by_cases ht : t = a.tid
    · subst ht
      rw [hst] at hown
      rcases hown with e | ⟨e, er⟩ | ⟨d', m', g', r', e, hm⟩ | ⟨_, _, _, e, hg⟩
      · cases e
      · exact Nat.lt_of_lt_of_le (h.req _ _ _ _ e.symm) hn
      · cases e
      · cases e; exact Nat.lt_of_lt_of_le hg hn
    · rw [(hoth t ht).1] at hst
      exact Nat.lt_of_lt_of_le (h.req _ _ _ _ hst) hn

structure Sound (s : State) : Prop where
  full : Full s
  em : EmI s.stk s.emitter
  ok : s.ub = false → EmOk s
  life : s.ub = false → Life s.sigs s.nextSig s.map s.refs
  refer : Refer s.stk s.nextSig s.refs

theorem sound (acts : List Act) (s : State) (h : run init acts = some s) : Sound s := by
  refine run_inv Sound ⟨full_init, by simp [EmI, init], fun _ => by simp [EmOk, init, Sig.init], fun _ => ?_, ?_⟩ ?_ acts s h
  · exact ⟨fun _ => rfl, fun _ => rfl, fun _ _ => rfl, by simp [init], by simp [init]⟩
  · exact ⟨by simp [init], by simp [init]⟩
  · intro s a s' h hs
    have hu := (step_body hs).1
    exact ⟨full_step h.full hs, EmI_step h.em hs, EmOk_step h.full h.em (h.ok hu) hs,
      Life_step (h.life hu) h.refer h.full.ops hs, Refer_step h.full h.refer hs⟩

end Maf.Proc
