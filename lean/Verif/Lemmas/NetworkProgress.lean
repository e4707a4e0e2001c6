import Verif.Lemmas.NetworkMoves
/-
A network of signals moves.
-/
namespace Maf.Net

/-- What every step of every signal preserves. -/
theorem sigs_step (P : (SigId → Sig.State Nat) → (SigId → SlotId → Kind) → Bool → Prop)
    (hsig : ∀ sigs kinds ub g b x, P sigs kinds ub → Sig.step (sigs g) b = some x → b ≠ .connect → b ≠ .connectAware → P (upd sigs g x) kinds (ub || x.ub))
    (hcon : ∀ sigs kinds ub g k x, P sigs kinds ub → Sig.step (sigs g) (if k.aware then .connectAware else .connect) = some x →
      P (upd sigs g x) (upd kinds g (upd (kinds g) (sigs g).nextSlot k)) (ub || x.ub))
    {s s' : State} {a : Act} (hs : step s a = some s') (h : P s.sigs s.kinds s.ub) : P s'.sigs s'.kinds s'.ub := by
  have one : ∀ {s1 s' : State} {t : Tid} {g : SigId} {b : Sig.Act Nat}, P s1.sigs s1.kinds s1.ub → sigStep s1 t g b = some s' → b ≠ .connect → b ≠ .connectAware → P s'.sigs s'.kinds s'.ub := by
    intro s1 s' t g b h1 h2 n1 n2
    obtain ⟨x, es, a1, a2, a3, rfl⟩ := sigStep_spec h2
    exact hsig _ _ _ _ _ _ h1 a1 n1 n2
  have ab : ∀ {s1 s' : State} {t : Tid} {g : SigId} {sl : SlotId}, P s1.sigs s1.kinds s1.ub → abandon s1 t g sl = some s' → P s'.sigs s'.kinds s'.ub := by
    intro s1 s' t g sl h1 h2
    unfold abandon at h2
    split at h2
    · cases h2
    · next n _ =>
      cases h3 : sigStep s1 t g (.disconnect n) with
      | none => rw [h3] at h2; cases h2
      | some s2 =>
        rw [h3] at h2
        exact one (one h1 h3 (by simp) (by simp)) h2 (by simp) (by simp)
  unfold step at hs
  split at hs
  · cases hs
  cases a with
  | call t g w =>
    simp only [body] at hs
    split at hs <;> cases hs
    exact h
  | enter t =>
    simp only [body] at hs
    split at hs
    · next g w rest hr =>
      split at hs
      · cases w with
        | emit a =>
          simp only [entered] at hs
          split at hs
          · cases hs; exact h
          · exact one (s1 := { s with stk := upd s.stk t (.notifying g a :: rest), owner := upd s.owner g (some t) }) h hs (by simp) (by simp)
        | connect k =>
          simp only [entered] at hs
          split at hs
          · cases hs; exact h
          · obtain ⟨x, es, a1, a2, a3, rfl⟩ := sigStep_spec hs
            exact hcon _ _ _ _ _ _ h a1
        | op b =>
          simp only [entered] at hs
          split at hs
          · next ho =>
            split at hs
            · next h1 =>
              cases hs
              refine one ?_ h1 ?_ ?_
              · exact h
              · rintro rfl; simp [opOk] at ho
              · rintro rfl; simp [opOk] at ho
            · cases hs; exact h
          · cases hs; exact h
      · cases hs
    · cases hs
  | iter t =>
    simp only [body] at hs
    split at hs
    · next g b rest hr =>
      cases h0 : sigStep s t g .iter with
      | none => rw [h0] at hs; cases hs
      | some s1 =>
        rw [h0] at hs
        have h1 := one h h0 (by simp) (by simp)
        simp only at hs
        split at hs
        · cases hs; exact h1
        · unfold start at hs
          split at hs
          · cases hs; exact h1
          · refine one ?_ hs (by simp) (by simp); exact h1
          · split at hs
            · cases hs; exact h1
            · exact ab h1 hs
          · split at hs
            · refine one ?_ hs (by simp) (by simp); exact h1
            · exact ab h1 hs
          · split at hs
            · cases hs; exact h1
            · exact ab h1 hs
        · cases hs; exact h1
    · cases hs
  | ret t =>
    simp only [body] at hs
    split at hs
    · next g sl a o rest hr =>
      refine one ?_ hs (by simp) (by simp)
      cases o <;> exact h
    · refine one ?_ hs (by simp) (by simp)
      exact h
    · cases hs; exact h
    · cases hs
  | release o =>
    simp only [body] at hs
    split at hs <;> cases hs
    exact h
  | runJob t k =>
    simp only [body] at hs
    split at hs
    · split at hs <;> cases hs
      exact h
    · cases hs
  | dropJob k =>
    simp only [body] at hs
    split at hs <;> cases hs
    exact h

/-- Slots that get a connection of their own have one; and no signal is undefined while the network is not. -/
def Known (sigs : SigId → Sig.State Nat) (kinds : SigId → SlotId → Kind) (ub : Bool) : Prop :=
  (ub = false → ∀ g, (sigs g).ub = false) ∧ ∀ g sl, sl < (sigs g).nextSlot → (kinds g sl).aware = true → ∃ h, (sl, h) ∈ (sigs g).aware

theorem known_step {s s' : State} {a : Act} (hs : step s a = some s') (h : Known s.sigs s.kinds s.ub) : Known s'.sigs s'.kinds s'.ub := by
  refine sigs_step Known ?_ ?_ hs h
  · rintro sigs kinds ub g b x ⟨h1, h2⟩ hb n1 n2
    obtain ⟨es, a1, a2, a3, a4, a5⟩ := Sig.step_adds hb
    obtain ⟨b1, b2⟩ := a3 n1 n2
    refine ⟨fun hu g' => ?_, fun g' sl => ?_⟩
    · simp only [Bool.or_eq_false_iff] at hu
      by_cases e : g' = g
      · subst e; rw [upd_same]; exact hu.2
      · rw [upd_other _ _ e]; exact h1 hu.1 g'
    · by_cases e : g' = g
      · subst e; rw [upd_same, b1, b2]; exact h2 g' sl
      · rw [upd_other _ _ e]; exact h2 g' sl
  · rintro sigs kinds ub g k x ⟨h1, h2⟩ hb
    refine ⟨fun hu g' => ?_, fun g' sl => ?_⟩
    · simp only [Bool.or_eq_false_iff] at hu
      by_cases e : g' = g
      · subst e; rw [upd_same]; exact hu.2
      · rw [upd_other _ _ e]; exact h1 hu.1 g'
    · by_cases e : g' = g
      · subst e
        rw [upd_same, upd_same]
        unfold Sig.step at hb
        split at hb
        · cases hb
        cases hk : k.aware with
        | true =>
          rw [hk] at hb
          simp only [if_true, Sig.body] at hb
          split at hb
          · cases hb
            intro hsl ha
            by_cases e : sl = (sigs g').nextSlot
            · subst e; exact ⟨_, List.mem_append_right _ List.mem_cons_self⟩
            · rw [upd_other _ _ e] at ha
              simp only at hsl
              obtain ⟨n, hn⟩ := h2 g' sl (Nat.lt_of_le_of_ne (Nat.le_of_lt_succ hsl) e) ha
              exact ⟨n, List.mem_append_left _ hn⟩
          · cases hb
        | false =>
          rw [hk] at hb
          simp only [Bool.false_eq_true, if_false, Sig.body] at hb
          split at hb
          · cases hb
            intro hsl ha
            by_cases e : sl = (sigs g').nextSlot
            · subst e; rw [upd_same, hk] at ha; cases ha
            · rw [upd_other _ _ e] at ha
              simp only at hsl
              exact h2 g' sl (Nat.lt_of_le_of_ne (Nat.le_of_lt_succ hsl) e) ha
          · cases hb
      · rw [upd_other _ _ e, upd_other _ _ e]; exact h2 g' sl

theorem known_run {as : List Act} {s s' : State} (hr : run s as = some s') (h : Known s.sigs s.kinds s.ub) : Known s'.sigs s'.kinds s'.ub := by
  induction as generalizing s with
  | nil => cases hr; exact h
  | cons a as ih =>
    simp only [run] at hr
    cases hs : step s a with
    | none => rw [hs] at hr; cases hr
    | some s1 => rw [hs] at hr; exact ih hr (known_step hs h)

theorem known_init : Known init.sigs init.kinds init.ub := ⟨fun _ _ => rfl, by intro g sl h; simp [init, Sig.init] at h⟩

/-- All that is known of a reachable state that is not undefined. -/
structure Good (s : State) : Prop where
  ub : s.ub = false
  inv : Inv s
  locks : Locks s.sigs s.owner s.stk
  agree : ∀ t, Agree s.sigs (s.stk t)
  known : Known s.sigs s.kinds s.ub

theorem good {as : List Act} {s : State} (h : run init as = some s) (hu : s.ub = false) : Good s :=
  ⟨hu, inv_run inv_init h, locks_run (fun _ => locks_init) h hu, agree_run inv_init (fun _ => locks_init) (fun _ => agree_init) h hu, known_run h known_init⟩

theorem Good.sub {s : State} (h : Good s) (g : SigId) : (s.sigs g).ub = false := h.known.1 h.ub g

theorem sigStep_ok {s : State} {t : Tid} {g : SigId} {a : Sig.Act Nat} {x : Sig.State Nat} (hu : (s.sigs g).ub = false) (h : Sig.body (s.sigs g) a = some x) : ∃ s', sigStep s t g a = some s' := by
  unfold sigStep Sig.step
  rw [if_neg (by simp [hu]), h]
  exact ⟨_, rfl⟩

/-- A signal whose mutex can be taken is free. -/
theorem kFree_free {s : State} (h : Good s) {t : Tid} {g : SigId} {w : Want} {r : List Frame} (hs : s.stk t = .wants g w :: r) (hk : kFree s t g = true) : Sig.free (s.sigs g) = true := by
  unfold kFree at hk
  simp only [Bool.or_eq_true, beq_iff_eq] at hk
  rcases hk with hk | hk
  · unfold Sig.free; rw [(h.locks.em g).2 hk]
  · have hc := h.locks.own g t
    rw [if_pos hk] at hc
    -- the emission is below, in a slot
    have hex : ∃ f ∈ s.stk t, emits g f = true := List.countP_pos_iff.1 (by omega)
    obtain ⟨f, hf, he⟩ := hex
    have key : ∀ st : List Frame, Linked st → (∀ b r', st ≠ .notifying g b :: r') → (∃ f ∈ st, emits g f = true) → ∃ f ∈ st, ∃ sl, inSlot g sl f := by
      intro st
      induction st with
      | nil => rintro _ _ ⟨f, hf, _⟩; cases hf
      | cons x r ih =>
        rintro hl hn ⟨f, hf, he⟩
        rcases List.mem_cons.1 hf with rfl | hf
        · cases f with
          | notifying g' b =>
            simp [emits] at he; subst he
            exact absurd rfl (hn b r)
          | _ => simp [emits] at he
        · by_cases hr : ∃ b r', r = .notifying g b :: r'
          · obtain ⟨b, r', rfl⟩ := hr
            have hb := hl.1
            cases x with
            | wants g' w' => rcases hb _ _ rfl with h1 | ⟨_, _, _, _, h1⟩ <;> cases h1
            | notifying g' w' => rcases hb _ _ rfl with h1 | ⟨_, _, _, _, h1⟩ <;> cases h1
            | user g' sl a o =>
              obtain ⟨b', r'', e⟩ := hb
              cases e
              exact ⟨_, List.mem_cons_self, sl, rfl, rfl⟩
            | fwd g' sl h' a =>
              obtain ⟨b', r'', e⟩ := hb
              cases e
              exact ⟨_, List.mem_cons_self, sl, rfl, rfl⟩
            | job g' sl a => have := hb _ _ rfl; cases this
          · obtain ⟨y, hy, sl, hi⟩ := ih hl.2 (fun b r' e => hr ⟨b, r', e⟩) ⟨f, hf, he⟩
            exact ⟨y, List.mem_cons_of_mem _ hy, sl, hi⟩
    obtain ⟨y, hy, sl, hi⟩ := key (s.stk t) (h.agree t).linked (by rw [hs]; intro b r' e; cases e) ⟨f, hf, he⟩
    obtain ⟨a, i, tk, hb⟩ := (h.agree t).slots y hy g sl hi
    unfold Sig.free; rw [hb]; rfl

theorem sig_disconnect_ub (x : Sig.State Nat) (n : Nat) : (Sig.disconnect x n).1.ub = x.ub := by
  unfold Sig.disconnect
  split
  · next sl _ =>
    split
    · have hr : (Sig.remove x sl).1.ub = x.ub := by
        unfold Sig.remove
        split
        · rfl
        · split
          · rfl
          · split <;> rfl
      split
      · next h => rw [h] at hr; exact hr
      · next h => rw [h] at hr; exact hr
    · rfl
  · rfl

/-- A thread that is not waiting for another one can move. -/
theorem top_moves {s : State} (h : Good s) {t : Tid} {f : Frame} {r : List Frame} (hs : s.stk t = f :: r) (hw : ∀ g w, f = .wants g w → kFree s t g = true) :
    ∃ a s', (a = .enter t ∨ a = .iter t ∨ a = .ret t) ∧ step s a = some s' := by
  have up : ∀ {a}, (∃ s', body s a = some s') → ∃ s', step s a = some s' := by
    rintro a ⟨s', hb⟩
    exact ⟨s', by unfold step; rw [if_neg (by simp [h.ub]), hb]⟩
  have retOk : ∀ {s1 : State} {g : SigId} {sl : SlotId}, (s1.sigs g).ub = false → Busy (s1.sigs g) sl → ∃ s', sigStep s1 t g .ret = some s' := by
    rintro s1 g sl hu ⟨a, i, tk, hb⟩
    exact sigStep_ok hu (by simp only [Sig.body]; rw [hb])
  have busy : ∀ {g sl}, inSlot g sl f → Busy (s.sigs g) sl := fun hi => (h.agree t).slots f (by rw [hs]; simp) _ _ hi
  cases f with
  | wants g w =>
    have hk := hw g w rfl
    have hfree := kFree_free h hs hk
    refine ⟨.enter t, ?_⟩
    obtain ⟨s', h'⟩ : ∃ s', step s (.enter t) = some s' := by
      refine up ?_
      simp only [body, hs, hk, if_true]
      cases w with
      | emit a =>
        simp only [entered]
        split
        · exact ⟨_, rfl⟩
        · next hc =>
          have hal : (s.sigs g).alive = true := by
            cases e : (s.sigs g).alive with
            | true => rfl
            | false => exact absurd (.inl e) hc
          have hb : ∃ x, Sig.body (s.sigs g) (.emit a) = some x := by
            simp only [Sig.body]
            rw [if_pos (by simp [hal, hfree]), if_neg (fun e => hc (.inr e))]
            split <;> exact ⟨_, rfl⟩
          obtain ⟨x, hb⟩ := hb
          exact sigStep_ok (s := { s with stk := upd s.stk t (.notifying g a :: r), owner := upd s.owner g (some t) }) (h.sub g) hb
      | connect k =>
        simp only [entered]
        split
        · exact ⟨_, rfl⟩
        · next hc =>
          have hb : ∃ x, Sig.body (s.sigs g) (if k.aware then .connectAware else .connect) = some x := by
            cases k.aware <;> simp only [Bool.false_eq_true, if_false, if_true, Sig.body] <;> rw [if_pos (by simp at hc; simp [hc, hfree])] <;> exact ⟨_, rfl⟩
          obtain ⟨x, hb⟩ := hb
          exact sigStep_ok (s := { s with
            stk := upd s.stk t r, kinds := upd s.kinds g (upd (s.kinds g) (s.sigs g).nextSlot k)
            log := s.log ++ [.connected t g (s.sigs g).nextSlot k] }) (h.sub g) hb
      | op a =>
        simp only [entered]
        split
        · split <;> exact ⟨_, rfl⟩
        · exact ⟨_, rfl⟩
    exact ⟨s', .inl rfl, h'⟩
  | notifying g b =>
    refine ⟨.iter t, ?_⟩
    obtain ⟨s', h'⟩ : ∃ s', step s (.iter t) = some s' := by
      refine up ?_
      obtain ⟨a, i, hem⟩ := (h.agree t).top g b r hs
      have hb : ∃ x, Sig.body (s.sigs g) .iter = some x := by
        simp only [Sig.body]; rw [hem]
        simp only
        split <;> exact ⟨_, rfl⟩
      obtain ⟨x, hb⟩ := hb
      obtain ⟨s1, h1⟩ := sigStep_ok (t := t) (h.sub g) hb
      simp only [body, hs, h1]
      obtain ⟨x, es, a1, a2, -, rfl⟩ := sigStep_spec h1
      simp only [upd_same]
      have hxu : x.ub = false := by
        unfold Sig.step at a1
        split at a1
        · cases a1
        · simp only [Sig.body] at a1; rw [hem] at a1; simp only at a1
          have := h.sub g
          split at a1 <;> cases a1 <;> exact this
      rcases Sig.iter_cases a1 with ⟨he, hl⟩ | ⟨a, i, he, hl⟩ | ⟨a, i, tk, sl, he, hl, hmem, hsl⟩
      · rw [he]; exact ⟨_, rfl⟩
      · rw [he]; exact ⟨_, rfl⟩
      · rw [he]
        simp only
        have hbusy : Busy x sl := ⟨a, i, tk, he⟩
        have hnext : sl < (s.sigs g).nextSlot := by
          have hI := h.inv.core.sound.inv g
          rw [hsl] at hmem
          refine hI.fresh (tk, sl) ?_
          unfold Sig.liveOf
          simp only [List.mem_filterMap]
          exact ⟨_, hmem, rfl⟩
        have haw : x.aware = (s.sigs g).aware := by
          obtain ⟨es, _, _, a3, _⟩ := Sig.step_adds a1
          exact (a3 (by simp) (by simp)).2
        have hab : ∀ s1 : State, s1.sigs g = x → (s.kinds g sl).aware = true → ∃ s', abandon s1 t g sl = some s' := by
          intro s1 e1 hk
          unfold abandon
          obtain ⟨n, hn⟩ := h.known.2 g sl hnext hk
          rw [e1, haw]
          cases hlk : (s.sigs g).aware.lookup sl with
          | none => rw [List.lookup_eq_none_iff] at hlk; have := hlk _ hn; simp at this
          | some n' =>
            simp only
            have hfree : Sig.free x = true := by unfold Sig.free; rw [he]; rfl
            obtain ⟨s2, h2⟩ : ∃ s2, sigStep s1 t g (.disconnect n') = some s2 := by
              refine sigStep_ok (x := (Sig.disconnect x n').1) (by rw [e1]; exact hxu) ?_
              rw [e1]; simp only [Sig.body]; rw [if_pos hfree]
            rw [h2]
            obtain ⟨y, es, b1, b2, b3, rfl⟩ := sigStep_spec h2
            have hye : y.emission = x.emission := by
              have := sig_em_eq b1 (by simp) (by simp) (by simp)
              rw [e1] at this; exact this
            refine retOk (sl := sl) ?_ ?_
            · simp only [upd_same]
              rw [e1] at b1
              unfold Sig.step at b1
              rw [if_neg (by simp [hxu])] at b1
              simp only [Sig.body, hfree, if_true] at b1
              cases b1
              rw [sig_disconnect_ub]; exact hxu
            · simp only [upd_same]
              unfold Busy; rw [hye]; exact hbusy
        unfold start
        simp only
        split
        · exact ⟨_, rfl⟩
        · exact retOk (sl := sl) (by simpa only [upd_same] using hxu) (by simpa only [upd_same] using hbusy)
        · next o hk =>
          split
          · exact ⟨_, rfl⟩
          · exact hab _ (by simp only [upd_same]) (by rw [hk]; rfl)
        · next o hk =>
          split
          · exact retOk (sl := sl) (by simpa only [upd_same] using hxu) (by simpa only [upd_same] using hbusy)
          · exact hab _ (by simp only [upd_same]) (by rw [hk]; rfl)
        · next o hk =>
          split
          · exact ⟨_, rfl⟩
          · exact hab _ (by simp only [upd_same]) (by rw [hk]; rfl)
    exact ⟨s', .inr (.inl rfl), h'⟩
  | user g sl a o =>
    refine ⟨.ret t, ?_⟩
    obtain ⟨s', h'⟩ : ∃ s', step s (.ret t) = some s' := by
      refine up ?_
      simp only [body, hs]
      refine retOk (sl := sl) ?_ ?_
      · rw [(unlock_same _ _ _ _ _).2.1]; exact h.sub g
      · rw [(unlock_same _ _ _ _ _).2.1]; exact busy ⟨rfl, rfl⟩
    exact ⟨s', .inr (.inr rfl), h'⟩
  | fwd g sl h' a =>
    refine ⟨.ret t, ?_⟩
    obtain ⟨s', h'⟩ : ∃ s', step s (.ret t) = some s' := by
      refine up ?_
      simp only [body, hs]
      exact retOk (sl := sl) (h.sub g) (busy ⟨rfl, rfl⟩)
    exact ⟨s', .inr (.inr rfl), h'⟩
  | job g sl a =>
    refine ⟨.ret t, ?_⟩
    obtain ⟨s', h'⟩ : ∃ s', step s (.ret t) = some s' := up (by simp only [body, hs]; exact ⟨_, rfl⟩)
    exact ⟨s', .inr (.inr rfl), h'⟩

/-- Forwarding goes upwards, from the emissions below to the signal the thread waits for. -/
theorem waits_above {s : State} (h : Good s) (rank : SigId → Nat) (hr : ∀ g sl h, Is s.log g sl (.forward h) → rank g < rank h) {t : Tid} {g' : SigId} {w : Want} {r : List Frame}
    (hs : s.stk t = .wants g' w :: r) (hn : ∀ f ∈ r, f.isUser = false) {g : SigId} {b : Nat} (hg : Frame.notifying g b ∈ r) : rank g < rank g' := by
  have hst := h.inv.stack h.ub t
  have hl := (h.agree t).linked
  have hf := h.inv.core.runs.frames t
  have key : ∀ (st : List Frame) (k : SigId) (top : Frame), (∃ w, top = .wants k w) ∨ (∃ b, top = .notifying k b) → Stk s.log t none (top :: st) ∨ (∃ ab, Stk s.log t ab (top :: st)) → Linked (top :: st) →
      (∀ f ∈ st, FrameOk s.log f) → (∀ f ∈ st, f.isUser = false) → ∀ g b, Frame.notifying g b ∈ st → rank g < rank k := by
    intro st
    induction hn : st.length using Nat.strongRecOn generalizing st with
    | _ n ih =>
      subst hn
      intro k top htop hst hl hf hu g b hg
      have hst : ∃ ab, Stk s.log t ab (top :: st) := by rcases hst with h1 | h1; exact ⟨_, h1⟩; exact h1
      cases st with
      | nil => cases hg
      | cons f r =>
        have hb : f.isUser = true ∨ ∃ g sl h a, f = .fwd g sl h a := by
          rcases htop with ⟨w, rfl⟩ | ⟨b, rfl⟩ <;> exact hl.1 _ _ rfl
        rcases hb with hb | ⟨g1, sl, h1, a, rfl⟩
        · rw [hu f (by simp)] at hb; cases hb
        · obtain ⟨ab, hst⟩ := hst
          have hfw := hst.2.1
          have hk1 : h1 = k := by
            obtain ⟨l1, l2, _, hm⟩ := hfw
            rcases htop with ⟨w, rfl⟩ | ⟨b, rfl⟩
            · cases w with
              | emit a' => exact hm.1.symm
              | connect _ => exact hm.elim
              | op _ => exact hm.elim
            · exact hm.1.symm
          subst hk1
          have hlt : rank g1 < rank h1 := hr g1 sl h1 (hf _ (by simp) : FrameOk s.log (.fwd g1 sl h1 a))
          obtain ⟨b1, r1, rfl⟩ := hl.2.1
          have hg : Frame.notifying g b = .notifying g1 b1 ∨ Frame.notifying g b ∈ r1 := by
            rcases List.mem_cons.1 hg with h1 | hg
            · cases h1
            · exact List.mem_cons.1 hg
          rcases hg with e | hg
          · cases e; exact hlt
          · have := ih r1.length (by simp; omega) r1 rfl g1 (.notifying g1 b1) (.inr ⟨_, rfl⟩) (.inr ⟨_, hst.2.2⟩) hl.2.2 (fun f hf' => hf f (by simp [hf'])) (fun f hf' => hu f (by simp [hf'])) g b hg
            omega
  exact key r g' (.wants g' w) (.inl ⟨w, rfl⟩) (.inl (hs ▸ hst)) (hs ▸ hl) (fun f hf' => hf f (by rw [hs]; exact List.mem_cons_of_mem _ hf')) hn g b hg

theorem moves {s : State} (h : Good s) (rank : SigId → Nat) (N : Nat) (hN : ∀ g, rank g ≤ N) (hr : ∀ g sl h, Is s.log g sl (.forward h) → rank g < rank h)
    (hn : ∀ t, ∀ f ∈ (s.stk t).tail, f.isUser = false) {t : Tid} (ht : s.stk t ≠ []) : ∃ u a s', (a = .enter u ∨ a = .iter u ∨ a = .ret u) ∧ step s a = some s' := by
  -- a thread that waits for a signal of another thread: go to that thread
  have key : ∀ k t g w r, N - rank g = k → s.stk t = .wants g w :: r → ∃ u a s', (a = .enter u ∨ a = .iter u ∨ a = .ret u) ∧ step s a = some s' := by
    intro k
    induction k using Nat.strongRecOn with
    | _ k ih =>
      intro t g w r hk hs
      cases hfree : kFree s t g with
      | true =>
        obtain ⟨a, s', h1, h2⟩ := top_moves h hs (by intro g' w' e; cases e; exact hfree)
        exact ⟨t, a, s', h1, h2⟩
      | false =>
        cases ho : s.owner g with
        | none => simp [kFree, ho] at hfree
        | some u =>
          have hc := h.locks.own g u
          rw [if_pos ho] at hc
          obtain ⟨f, hf, he⟩ := List.countP_pos_iff.1 (show 0 < (s.stk u).countP (emits g) by omega)
          obtain ⟨b, rfl⟩ : ∃ b, f = .notifying g b := by
            cases f with
            | notifying g' b => simp [emits] at he; subst he; exact ⟨b, rfl⟩
            | _ => simp [emits] at he
          cases hsu : s.stk u with
          | nil => rw [hsu] at hf; cases hf
          | cons f r' =>
            by_cases hw : ∃ g' w', f = .wants g' w'
            · obtain ⟨g', w', rfl⟩ := hw
              rw [hsu] at hf
              have hf : Frame.notifying g b ∈ r' := by
                rcases List.mem_cons.1 hf with e | hf
                · cases e
                · exact hf
              have hlt := waits_above h rank hr hsu (by have := hn u; rw [hsu] at this; exact this) hf
              have := hN g'
              exact ih (N - rank g') (by omega) u g' w' r' rfl hsu
            · obtain ⟨a, s', h1, h2⟩ := top_moves h hsu (by intro g' w' e; exact absurd ⟨g', w', e⟩ hw)
              exact ⟨u, a, s', h1, h2⟩
  cases hs : s.stk t with
  | nil => exact absurd hs ht
  | cons f r =>
    by_cases hw : ∃ g' w', f = .wants g' w'
    · obtain ⟨g', w', rfl⟩ := hw
      exact key _ t g' w' r rfl hs
    · obtain ⟨a, s', h1, h2⟩ := top_moves h hs (by intro g' w' e; exact absurd ⟨g', w', e⟩ hw)
      exact ⟨t, a, s', h1, h2⟩

end Maf.Net
