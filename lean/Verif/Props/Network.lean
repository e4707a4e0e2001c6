import Verif.Lemmas.NetworkLocks
import Verif.Props.Signal
/-
C113, C114: slots that belong to objects, slots that are called by executors, signals connected to signals.
-/
namespace Maf.Net

theorem inv {as : List Act} {s : State} (h : run init as = some s) : Inv s := inv_run inv_init h

/-! ### C113 -/

/-- What happens to each signal of the network is what C23-C25 and C57 say about signals. -/
theorem signal_rules (as : List Act) (s : State) (h : run init as = some s) (g : SigId) :
    ∃ acts x, Sig.run (Sig.init Nat) acts = some x ∧ x.log = sigLog g s.log := by
  obtain ⟨acts, ha⟩ := (inv h).core.sound.reach g
  exact ⟨acts, _, ha, (inv h).core.sound.proj g⟩

/-- A function is connected in one way only. -/
theorem one_kind (as : List Act) (s : State) (h : run init as = some s) {g sl k k'} (h1 : Is s.log g sl k) (h2 : Is s.log g sl k') : k = k' :=
  (inv h).core.sound.unique h1 h2

/-- A call of a slot is, at once: a call of the function, the executor's getting the function, or an emission, as the slot was connected; unless its object or signal has been destroyed. -/
theorem called_runs (as : List Act) (s : State) (h : run init as = some s) {l m t g tk sl a} (hl : s.log = l ++ .sig t g (.called tk sl a) :: m) :
    ∃ k, Is l g sl k ∧ Follows s.ub l m t g sl a k :=
  (inv h).core.calls l t g tk sl a m hl

/-- A function without executor runs only when its slot is called, on the thread that emits, with the emission's argument. -/
theorem runs_called (as : List Act) (s : State) (h : run init as = some s) {l m t g sl a} (hl : s.log = l ++ .ran t g sl a :: m)
    (hk : Is s.log g sl .plain ∨ ∃ o, Is s.log g sl (.tracked o)) : JustCalled l t g sl a := by
  have hi := inv h
  have up : ∀ k, Is l g sl k → Is s.log g sl k := fun k hk => by rw [hl]; exact hk.more _
  rcases hi.core.hist.all l _ m hl with ⟨_, hj⟩ | ⟨_, _, _, hj⟩ | ⟨hb, _⟩
  · exact hj
  · exact hj
  · exfalso
    rcases hb with hb | ⟨o', hb⟩ <;> rcases hk with hk | ⟨o, hk⟩ <;> have := hi.core.sound.unique hk (up _ hb) <;> cases this

/-- A function connected with an object runs only while the object exists. -/
theorem tracked_alive_partial (as : List Act) (s : State) (h : run init as = some s) {l m t g sl a o} (hl : s.log = l ++ .ran t g sl a :: m) (hk : Is s.log g sl (.tracked o)) :
    Ev.objGone o ∉ l := by
  have hi := inv h
  have up : ∀ k, Is l g sl k → Is s.log g sl k := fun k hk => by rw [hl]; exact hk.more _
  rcases hi.core.hist.all l _ m hl with ⟨h1, _⟩ | ⟨o', h1, h2, _⟩ | ⟨h1 | ⟨o', h1⟩, _⟩
  · have := hi.core.sound.unique hk (up _ h1); cases this
  · have := hi.core.sound.unique hk (up _ h1); cases this; exact h2
  · have := hi.core.sound.unique hk (up _ h1); cases this
  · have := hi.core.sound.unique hk (up _ h1); cases this

/-- The object is not destroyed while the function runs: then every call of the function has returned. It is destroyed once. -/
theorem tracked_kept (as : List Act) (s : State) (h : run init as = some s) {l m o} (hl : s.log = l ++ .objGone o :: m) :
    Ev.objGone o ∉ l ∧ ∀ g sl, Is l g sl (.tracked o) → ∀ t a, l.count (.ran t g sl a) = l.count (.returned t g sl a) :=
  (inv h).core.hist.all l _ m hl

/-- A function with an executor: the executor gets it when the slot is called, and calls it no more often than it got it. -/
theorem queued_at_most_once (as : List Act) (s : State) (h : run init as = some s) {l m t g sl a} (hk : Is s.log g sl .queued ∨ ∃ o, Is s.log g sl (.trackedQueued o)) :
    (s.log = l ++ .posted t g sl a :: m → JustCalled l t g sl a ∧ ∀ o, Is s.log g sl (.trackedQueued o) → Ev.objGone o ∉ l) ∧
      (s.log = l ++ .ran t g sl a :: m → l.countP (ranOf g sl a) < l.countP (postedOf g sl a)) := by
  have hi := inv h
  constructor
  · intro hl
    have up : ∀ k, Is l g sl k → Is s.log g sl k := fun k hk => by rw [hl]; exact hk.more _
    obtain ⟨h1, h2⟩ := hi.core.hist.all l _ m hl
    refine ⟨h1, fun o ho => ?_⟩
    rcases h2 with h2 | ⟨o', h2, h3⟩
    · have := hi.core.sound.unique ho (up _ h2); cases this
    · have := hi.core.sound.unique ho (up _ h2); cases this; exact h3
  · intro hl
    have up : ∀ k, Is l g sl k → Is s.log g sl k := fun k hk => by rw [hl]; exact hk.more _
    rcases hi.core.hist.all l _ m hl with ⟨h1, _⟩ | ⟨o', h1, h2, _⟩ | ⟨_, h1⟩
    · exfalso; rcases hk with hk | ⟨o, hk⟩ <;> have := hi.core.sound.unique hk (up _ h1) <;> cases this
    · exfalso; rcases hk with hk | ⟨o, hk⟩ <;> have := hi.core.sound.unique hk (up _ h1) <;> cases this
    · exact h1

/-- Not always: the first emission that calls the slot after its object has been destroyed is undefined behaviour. -/
theorem dead_object_undefined (as : List Act) (s : State) (h : run init as = some s) {l m t g tk sl a o} (hl : s.log = l ++ .sig t g (.called tk sl a) :: m)
    (hk : Is l g sl (.tracked o) ∨ Is l g sl (.trackedQueued o)) (hd : Ev.objGone o ∈ l) : s.ub = true := by
  have hi := inv h
  have up : ∀ k, Is l g sl k → Is s.log g sl k := fun k hk => by rw [hl]; exact hk.more _
  obtain ⟨k, h1, h2⟩ := hi.core.calls l t g tk sl a m hl
  rcases hk with hk | hk
  · have := hi.core.sound.unique (up _ hk) (up _ h1)
    subst this
    rcases h2 with h2 | ⟨_, h2⟩
    · cases m with
      | nil => simp at h2
      | cons e m =>
        simp at h2; subst h2
        have := tracked_alive_partial as s h (show s.log = (l ++ [.sig t g (.called tk sl a)]) ++ .ran t g sl a :: m by simp [hl]) (up _ hk)
        exact absurd (List.mem_append_left _ hd) this
    · exact h2
  · have := hi.core.sound.unique (up _ hk) (up _ h1)
    subst this
    rcases h2 with h2 | ⟨_, h2⟩
    · cases m with
      | nil => simp at h2
      | cons e m =>
        simp at h2; subst h2
        have := ((queued_at_most_once as s h (.inr ⟨o, up _ hk⟩)).1 (show s.log = (l ++ [.sig t g (.called tk sl a)]) ++ .posted t g sl a :: m by simp [hl])).2 o (up _ hk)
        exact absurd (List.mem_append_left _ hd) this
    · exact h2

/-- It happens. -/
def deadRun : List Act := [.call 0 0 (.connect (.tracked 7)), .enter 0, .call 0 0 (.emit 5), .enter 0, .iter 0, .ret 0, .iter 0, .release 7, .call 0 0 (.emit 6), .enter 0, .iter 0]

example : (run init deadRun).map (fun s => (s.ub, s.log)) = some (true,
    [.connected 0 0 0 (.tracked 7), .sig 0 0 (.added 0 0), .sig 0 0 (.emitted 5), .sig 0 0 (.called 0 0 5), .ran 0 0 0 5, .returned 0 0 0 5, .sig 0 0 (.returned 0), .sig 0 0 .emissionDone,
      .objGone 7, .sig 0 0 (.emitted 6), .sig 0 0 (.called 0 0 6), .sig 0 0 (.removed 0 0), .sig 0 0 (.returned 0)]) := by decide +kernel

/-- Not always: with an executor the function runs after the object has been destroyed. -/
theorem queued_after_death : ∃ as s, run init as = some s ∧ s.ub = false ∧ ∃ l m, s.log = l ++ .ran 1 0 0 5 :: m ∧ Is l 0 0 (.trackedQueued 7) ∧ Ev.objGone 7 ∈ l := by
  refine ⟨[.call 0 0 (.connect (.trackedQueued 7)), .enter 0, .call 0 0 (.emit 5), .enter 0, .iter 0, .iter 0, .release 7, .runJob 1 0], _, rfl, rfl, ?_⟩
  refine ⟨[.connected 0 0 0 (.trackedQueued 7), .sig 0 0 (.added 0 0), .sig 0 0 (.emitted 5), .sig 0 0 (.called 0 0 5), .posted 0 0 0 5, .sig 0 0 (.returned 0), .sig 0 0 .emissionDone, .objGone 7], [], by decide +kernel, ⟨0, by simp⟩, by simp⟩

/-- Not always: with an executor the function runs after it has been disconnected. -/
theorem queued_after_disconnect : ∃ as s, run init as = some s ∧ s.ub = false ∧ ∃ l m, s.log = l ++ .ran 1 0 0 5 :: m ∧ Sig.connections (sigLog 0 l) = [] := by
  refine ⟨[.call 0 0 (.connect .queued), .enter 0, .call 0 0 (.emit 5), .enter 0, .iter 0, .iter 0, .call 0 0 (.op (.disconnect 0)), .enter 0, .runJob 1 0], _, rfl, rfl, ?_⟩
  refine ⟨[.connected 0 0 0 .queued, .sig 0 0 (.added 0 0), .sig 0 0 (.emitted 5), .sig 0 0 (.called 0 0 5), .posted 0 0 0 5, .sig 0 0 (.returned 0), .sig 0 0 .emissionDone, .sig 0 0 (.removed 0 0)], [], by decide +kernel, by decide +kernel⟩

/-- An object whose last owner is a running function: it is destroyed when the function has returned. -/
example : (run init [.call 0 0 (.connect (.tracked 7)), .enter 0, .call 0 0 (.emit 5), .enter 0, .iter 0, .release 7, .ret 0]).map (fun s => (s.ub, s.log)) = some (false,
    [.connected 0 0 0 (.tracked 7), .sig 0 0 (.added 0 0), .sig 0 0 (.emitted 5), .sig 0 0 (.called 0 0 5), .ran 0 0 0 5, .returned 0 0 0 5, .objGone 7, .sig 0 0 (.returned 0)]) := by decide +kernel

/-! ### C114 -/

/-- A slot that is a signal emits that signal, on the same thread, with the same argument, whenever it is called (and only then), if the signal has not been destroyed; -/
theorem forward_only (as : List Act) (s : State) (h : run init as = some s) {l m t g sl h' a} (hl : s.log = l ++ .forward t g sl h' a :: m) :
    Is l g sl (.forward h') ∧ JustCalled l t g sl a ∧ ∀ t', Ev.destroyed t' h' ∉ l :=
  (inv h).core.hist.all l _ m hl

/-- and it returns when that emission has ended: all slots of the other signal have been called (see `signal_rules`), or there were none. -/
theorem forwarded_emits_partial (as : List Act) (s : State) (h : run init as = some s) {l m t g sl h' a} (hl : s.log = l ++ .forwarded t g sl h' a :: m) :
    ∃ l1 l2, l = l1 ++ .forward t g sl h' a :: l2 ∧ Emitted t h' a l2 :=
  (inv h).core.hist.all l _ m hl

/-- An emission does nothing only if no slot is connected. -/
theorem skipped_empty (as : List Act) (s : State) (h : run init as = some s) {l m t g a} (hl : s.log = l ++ .skipped t g a :: m) : Sig.connections (sigLog g l) = [] :=
  (inv h).core.hist.all l _ m hl

/-- Not always: the first call of the slot after the other signal has been destroyed is undefined behaviour. -/
theorem dead_target_undefined (as : List Act) (s : State) (h : run init as = some s) {l m t t' g tk sl a h'} (hl : s.log = l ++ .sig t g (.called tk sl a) :: m)
    (hk : Is l g sl (.forward h')) (hd : Ev.destroyed t' h' ∈ l) : s.ub = true := by
  have hi := inv h
  have up : ∀ k, Is l g sl k → Is s.log g sl k := fun k hk => by rw [hl]; exact hk.more _
  obtain ⟨k, h1, h2⟩ := hi.core.calls l t g tk sl a m hl
  have := hi.core.sound.unique (up _ hk) (up _ h1)
  subst this
  rcases h2 with h2 | ⟨_, h2⟩
  · cases m with
    | nil => simp at h2
    | cons e m =>
      simp at h2; subst h2
      have := (forward_only as s h (show s.log = (l ++ [.sig t g (.called tk sl a)]) ++ .forward t g sl h' a :: m by simp [hl])).2.2 t'
      exact absurd (List.mem_append_left _ hd) this
  · exact h2

/-- It happens. -/
example : (run init [.call 0 0 (.connect (.forward 1)), .enter 0, .call 0 1 (.op .destroy), .enter 0, .call 0 0 (.emit 6), .enter 0, .iter 0]).map (fun s => s.ub) = some true := by decide +kernel

/-- Not always: two signals connected to each other; emitting one of them is undefined behaviour. -/
theorem cycle_undefined : ∃ as s, run init as = some s ∧ s.ub = true ∧ as = [.call 0 0 (.connect (.forward 1)), .enter 0, .call 0 1 (.connect (.forward 0)), .enter 0,
    .call 0 0 (.emit 5), .enter 0, .iter 0, .enter 0, .iter 0, .enter 0] := ⟨_, _, rfl, rfl, rfl⟩

/-- Signal 0 is connected to signal 1, whose function is called. -/
example : (run init [.call 0 0 (.connect (.forward 1)), .enter 0, .call 0 1 (.connect .plain), .enter 0, .call 2 0 (.emit 5), .enter 2, .iter 2, .enter 2, .iter 2, .ret 2, .iter 2, .ret 2, .iter 2]).map
    (fun s => (s.ub, s.log.drop 4)) = some (false, [.sig 2 0 (.emitted 5), .sig 2 0 (.called 0 0 5), .forward 2 0 0 1 5, .sig 2 1 (.emitted 5), .sig 2 1 (.called 0 0 5), .ran 2 1 0 5, .returned 2 1 0 5,
      .sig 2 1 (.returned 0), .sig 2 1 .emissionDone, .forwarded 2 0 0 1 5, .sig 2 0 (.returned 0), .sig 2 0 .emissionDone]) := by decide +kernel

/-- Two threads that wait for each other's signal. -/
def Crossed (s : State) (t t' : Tid) (g g' : SigId) : Prop :=
  s.owner g = some t ∧ s.owner g' = some t' ∧ (∃ w r, s.stk t = .wants g' w :: r) ∧ ∃ w r, s.stk t' = .wants g w :: r

theorem crossed_step {s s' : State} {a : Act} {t t' : Tid} {g g' : SigId} (hl : Locks s.sigs s.owner s.stk) (ht : t ≠ t') (h : Crossed s t t' g g') (hs : step s a = some s') :
    Crossed s' t t' g g' ∧ s'.stk t = s.stk t ∧ s'.stk t' = s.stk t' := by
  obtain ⟨o1, o2, ⟨w1, r1, s1⟩, w2, r2, s2⟩ := h
  -- the two threads do nothing
  have keep : ∀ {u : Tid} {s' : State}, u ≠ t → u ≠ t' → (∀ v, v ≠ u → s'.stk v = s.stk v) → s'.owner g = s.owner g → s'.owner g' = s.owner g' →
      Crossed s' t t' g g' ∧ s'.stk t = s.stk t ∧ s'.stk t' = s.stk t' := by
    intro u s' h1 h2 h3 h4 h5
    have e1 := h3 t (Ne.symm h1)
    have e2 := h3 t' (Ne.symm h2)
    exact ⟨⟨h4.trans o1, h5.trans o2, ⟨w1, r1, e1.trans s1⟩, w2, r2, e2.trans s2⟩, e1, e2⟩
  have other : ∀ u, (∀ w r, s.stk u ≠ .wants g w :: r) → (∀ w r, s.stk u ≠ .wants g' w :: r) → u ≠ t ∧ u ≠ t' := by
    intro u h1 h2
    exact ⟨by rintro rfl; exact h2 _ _ s1, by rintro rfl; exact h1 _ _ s2⟩
  have sigS : ∀ {x x' : State} {u : Tid} {k : SigId} {b : Sig.Act Nat}, sigStep x u k b = some x' → x'.stk = x.stk ∧ x'.owner = x.owner := by
    intro x x' u k b hx
    obtain ⟨_, _, _, _, _, rfl⟩ := sigStep_spec hx
    exact ⟨rfl, rfl⟩
  have abS : ∀ {x x' : State} {u : Tid} {k : SigId} {sl : SlotId}, abandon x u k sl = some x' → x'.stk = x.stk ∧ x'.owner = x.owner := by
    intro x x' u k sl hx
    unfold abandon at hx
    split at hx
    · cases hx
    · next n _ =>
      cases h1 : sigStep x u k (.disconnect n) with
      | none => rw [h1] at hx; cases hx
      | some x1 =>
        rw [h1] at hx
        have a1 := sigS h1
        have a2 := sigS hx
        exact ⟨a2.1.trans a1.1, a2.2.trans a1.2⟩
  unfold step at hs
  split at hs
  · cases hs
  cases a with
  | call u k w =>
    simp only [body] at hs
    split at hs
    · next hc =>
      cases hs
      have hc := hc.1
      have hu : u ≠ t ∧ u ≠ t' := by
        refine other u ?_ ?_ <;> intro w r e <;> simp [canCall, e, Frame.isUser] at hc
      exact keep hu.1 hu.2 (fun v hv => upd_other _ _ hv) rfl rfl
    · cases hs
  | enter u =>
    simp only [body] at hs
    split at hs
    · next k w rest hr =>
      split at hs
      · next hk =>
        have hu : u ≠ t ∧ u ≠ t' := by
          constructor
          · rintro rfl
            rw [s1] at hr; cases hr
            simp [kFree, o2, Ne.symm ht] at hk
          · rintro rfl
            rw [s2] at hr; cases hr
            simp [kFree, o1, ht] at hk
        have hkg : k ≠ g ∧ k ≠ g' := by
          constructor
          · rintro rfl; simp [kFree, o1] at hk; exact hu.1 hk.symm
          · rintro rfl; simp [kFree, o2] at hk; exact hu.2 hk.symm
        cases w with
        | emit b =>
          simp only [entered] at hs
          split at hs
          · cases hs; exact keep hu.1 hu.2 (fun v hv => upd_other _ _ hv) rfl rfl
          · obtain ⟨a1, a2⟩ := sigS hs
            refine keep hu.1 hu.2 (fun v hv => by rw [a1]; exact upd_other _ _ hv) ?_ ?_
            · rw [a2]; exact upd_other _ _ (Ne.symm hkg.1)
            · rw [a2]; exact upd_other _ _ (Ne.symm hkg.2)
        | connect kd =>
          simp only [entered] at hs
          split at hs
          · cases hs; exact keep hu.1 hu.2 (fun v hv => upd_other _ _ hv) rfl rfl
          · obtain ⟨a1, a2⟩ := sigS hs
            exact keep hu.1 hu.2 (fun v hv => by rw [a1]; exact upd_other _ _ hv) (by rw [a2]) (by rw [a2])
        | op b =>
          simp only [entered] at hs
          split at hs
          · split at hs
            · next h1 =>
              cases hs
              obtain ⟨a1, a2⟩ := sigS h1
              exact keep hu.1 hu.2 (fun v hv => by rw [a1]; exact upd_other _ _ hv) (by rw [a2]) (by rw [a2])
            · cases hs; exact keep hu.1 hu.2 (fun v hv => upd_other _ _ hv) rfl rfl
          · cases hs; exact keep hu.1 hu.2 (fun v hv => upd_other _ _ hv) rfl rfl
      · cases hs
    · cases hs
  | iter u =>
    simp only [body] at hs
    split at hs
    · next k b rest hr =>
      have hu : u ≠ t ∧ u ≠ t' := by refine other u ?_ ?_ <;> intro w r e <;> rw [hr] at e <;> cases e
      have hkown : s.owner k = some u := by
        have := hl.own k u
        rw [hr, List.countP_cons] at this
        by_cases e : s.owner k = some u
        · exact e
        · rw [if_neg e] at this; simp [emits] at this
      have hkg : g ≠ k ∧ g' ≠ k := by
        constructor
        · rintro rfl; rw [o1] at hkown; cases hkown; exact hu.1 rfl
        · rintro rfl; rw [o2] at hkown; cases hkown; exact hu.2 rfl
      cases h0 : sigStep s u k .iter with
      | none => rw [h0] at hs; cases hs
      | some s0 =>
        rw [h0] at hs
        obtain ⟨b1, b2⟩ := sigS h0
        simp only at hs
        split at hs
        · cases hs
          refine keep hu.1 hu.2 (fun v hv => by simp only [b1]; exact upd_other _ _ hv) ?_ ?_
          · simp only [b2]; exact upd_other _ _ hkg.1
          · simp only [b2]; exact upd_other _ _ hkg.2
        · unfold start at hs
          split at hs
          · cases hs
            exact keep hu.1 hu.2 (fun v hv => by simp only [b1]; exact upd_other _ _ hv) (by simp only [b2]) (by simp only [b2])
          · obtain ⟨a1, a2⟩ := sigS hs
            exact keep hu.1 hu.2 (fun v hv => by rw [a1]; simp only [b1]) (by rw [a2]; simp only [b2]) (by rw [a2]; simp only [b2])
          · split at hs
            · cases hs
              exact keep hu.1 hu.2 (fun v hv => by simp only [b1]; exact upd_other _ _ hv) (by simp only [b2]) (by simp only [b2])
            · obtain ⟨a1, a2⟩ := abS hs
              exact keep hu.1 hu.2 (fun v hv => by rw [a1]; simp only [b1]) (by rw [a2]; simp only [b2]) (by rw [a2]; simp only [b2])
          · split at hs
            · obtain ⟨a1, a2⟩ := sigS hs
              exact keep hu.1 hu.2 (fun v hv => by rw [a1]; simp only [b1]) (by rw [a2]; simp only [b2]) (by rw [a2]; simp only [b2])
            · obtain ⟨a1, a2⟩ := abS hs
              exact keep hu.1 hu.2 (fun v hv => by rw [a1]; simp only [b1]) (by rw [a2]; simp only [b2]) (by rw [a2]; simp only [b2])
          · split at hs
            · cases hs
              exact keep hu.1 hu.2 (fun v hv => by simp only [b1]; exact upd_other _ _ hv) (by simp only [b2]) (by simp only [b2])
            · obtain ⟨a1, a2⟩ := abS hs
              exact keep hu.1 hu.2 (fun v hv => by rw [a1]; simp only [b1]) (by rw [a2]; simp only [b2]) (by rw [a2]; simp only [b2])
        · cases hs
          exact keep hu.1 hu.2 (fun v hv => by rw [b1]) (by rw [b2]) (by rw [b2])
    · cases hs
  | ret u =>
    simp only [body] at hs
    split at hs
    · next k sl b o rest hr =>
      have hu : u ≠ t ∧ u ≠ t' := by refine other u ?_ ?_ <;> intro w r e <;> rw [hr] at e <;> cases e
      obtain ⟨a1, a2⟩ := sigS hs
      refine keep hu.1 hu.2 (fun v hv => ?_) ?_ ?_
      · rw [a1, (unlock_same _ _ _ _ _).1]; exact upd_other _ _ hv
      · rw [a2]; cases o <;> rfl
      · rw [a2]; cases o <;> rfl
    · next k sl h' b rest hr =>
      have hu : u ≠ t ∧ u ≠ t' := by refine other u ?_ ?_ <;> intro w r e <;> rw [hr] at e <;> cases e
      obtain ⟨a1, a2⟩ := sigS hs
      exact keep hu.1 hu.2 (fun v hv => by rw [a1]; exact upd_other _ _ hv) (by rw [a2]) (by rw [a2])
    · next k sl b rest hr =>
      have hu : u ≠ t ∧ u ≠ t' := by refine other u ?_ ?_ <;> intro w r e <;> rw [hr] at e <;> cases e
      cases hs
      exact keep hu.1 hu.2 (fun v hv => upd_other _ _ hv) rfl rfl
    · cases hs
  | release o =>
    simp only [body] at hs
    split at hs
    · cases hs; exact ⟨⟨o1, o2, ⟨w1, r1, s1⟩, w2, r2, s2⟩, rfl, rfl⟩
    · cases hs
  | runJob u k =>
    simp only [body] at hs
    split at hs
    · split at hs
      · next hc =>
        cases hs
        have hu : u ≠ t ∧ u ≠ t' := by
          refine other u ?_ ?_ <;> intro w r e <;> simp [canCall, e, Frame.isUser] at hc
        exact keep hu.1 hu.2 (fun v hv => upd_other _ _ hv) rfl rfl
      · cases hs
    · cases hs
  | dropJob k =>
    simp only [body] at hs
    split at hs
    · cases hs; exact ⟨⟨o1, o2, ⟨w1, r1, s1⟩, w2, r2, s2⟩, rfl, rfl⟩
    · cases hs

theorem crossed_run {as : List Act} {s s' : State} {t t' : Tid} {g g' : SigId} (hl : s.ub = false → Locks s.sigs s.owner s.stk) (ht : t ≠ t') (h : Crossed s t t' g g') (hr : run s as = some s') :
    s'.stk t = s.stk t ∧ s'.stk t' = s.stk t' := by
  induction as generalizing s with
  | nil => cases hr; exact ⟨rfl, rfl⟩
  | cons a as ih =>
    simp only [run] at hr
    cases hs : step s a with
    | none => rw [hs] at hr; cases hr
    | some s1 =>
      rw [hs] at hr
      obtain ⟨h1, h2, h3⟩ := crossed_step (hl (step_ub hs)) ht h hs
      obtain ⟨h4, h5⟩ := ih (fun hu => locks_step (hl (step_ub hs)) hs hu) h1 hr
      exact ⟨h4.trans h2, h5.trans h3⟩

/-- Two threads that wait for each other's signals wait for ever, whatever the other threads do. -/
theorem crossed_forever (as as' : List Act) (s s' : State) (h : run init as = some s) {t t' : Tid} {g g' : SigId} (ht : t ≠ t')
    (h1 : s.owner g = some t) (h2 : s.owner g' = some t') (h3 : ∃ w r, s.stk t = .wants g' w :: r) (h4 : ∃ w r, s.stk t' = .wants g w :: r) (hr : run s as' = some s') :
    s'.stk t = s.stk t ∧ s'.stk t' = s.stk t' :=
  crossed_run (locks_run (fun _ => locks_init) h) ht ⟨h1, h2, h3, h4⟩ hr

def crossing : List Act :=
  [.call 0 0 (.connect (.forward 1)), .enter 0, .call 0 1 (.connect (.forward 0)), .enter 0, .call 0 0 (.emit 5), .call 1 1 (.emit 6), .enter 0, .enter 1, .iter 0, .iter 1]

/-- Not always: two signals connected to each other, emitted by two threads at the same time: both threads wait for ever. -/
theorem crossing_deadlock : ∃ s, run init crossing = some s ∧ s.ub = false ∧ s.stk 0 = [.wants 1 (.emit 5), .fwd 0 0 1 5, .notifying 0 5] ∧ s.stk 1 = [.wants 0 (.emit 6), .fwd 1 0 0 6, .notifying 1 6] ∧
    ∀ as' s', run s as' = some s' → s'.stk 0 = s.stk 0 ∧ s'.stk 1 = s.stk 1 := by
  have h : ∃ s, run init crossing = some s ∧ s.ub = false ∧ s.stk 0 = [.wants 1 (.emit 5), .fwd 0 0 1 5, .notifying 0 5] ∧ s.stk 1 = [.wants 0 (.emit 6), .fwd 1 0 0 6, .notifying 1 6] ∧
      s.owner 0 = some 0 ∧ s.owner 1 = some 1 := ⟨_, rfl, rfl, rfl, rfl, rfl, rfl⟩
  obtain ⟨s, h1, h2, h3, h4, h5, h6⟩ := h
  exact ⟨s, h1, h2, h3, h4, fun as' s' hr => crossed_forever crossing as' s s' h1 (by decide) h5 h6 ⟨_, _, h3⟩ ⟨_, _, h4⟩ hr⟩

end Maf.Net
