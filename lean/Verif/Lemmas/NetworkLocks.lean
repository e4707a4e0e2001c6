import Verif.Lemmas.NetworkStep
/-
Who has locked the signals of a network.
-/
namespace Maf.Net

theorem sig_em {x x' : Sig.State Nat} {a : Sig.Act Nat} (h : Sig.step x a = some x') (h1 : ∀ b, a ≠ .emit b) (h2 : a ≠ .iter) : x'.emission = none ↔ x.emission = none := by
  have quiet : ∀ {x'}, Sig.Quiet x x' → (x'.emission = none ↔ x.emission = none) := by
    rintro x' ⟨_, _, _, _, _, _, h6⟩; rw [h6]
  unfold Sig.step at h
  split at h
  · cases h
  cases a with
  | emit b => exact absurd rfl (h1 b)
  | iter => exact absurd rfl h2
  | connect | connectAware =>
    simp only [Sig.body] at h
    split at h
    · cases h; exact Iff.rfl
    · cases h
  | keep =>
    simp only [Sig.body] at h
    split at h
    · cases h; exact Iff.rfl
    · cases h
  | disconnect n =>
    simp only [Sig.body] at h
    split at h
    · cases h; exact quiet (Sig.quiet_disconnect _ _)
    · cases h
  | reconnect n =>
    simp only [Sig.body] at h
    split at h
    · cases h; exact quiet (Sig.quiet_reconnect _ _)
    · cases h
  | drop n =>
    simp only [Sig.body] at h
    split at h
    · cases h; exact quiet (Sig.quiet_drop _ _)
    · cases h
  | scopeEnd n =>
    simp only [Sig.body] at h
    split at h
    · cases h
      split
      · exact quiet ((Sig.quiet_disconnect _ _).trans (Sig.quiet_drop _ _))
      · exact quiet (Sig.quiet_drop _ _)
    · cases h
  | clear =>
    simp only [Sig.body] at h
    split at h
    · split at h <;> cases h <;> exact Iff.rfl
    · cases h
  | ret =>
    simp only [Sig.body] at h
    split at h
    · next he => cases h; rw [he]; simp
    · cases h
  | destroy =>
    simp only [Sig.body] at h
    split at h
    · split at h <;> cases h <;> exact Iff.rfl
    · cases h

theorem sig_emit_new {x x' : Sig.State Nat} {a : Nat} (h : Sig.step x (.emit a) = some x') (hn : x.slots ≠ []) (hu : x'.ub = false) : x.emission = none ∧ x'.emission ≠ none := by
  unfold Sig.step at h
  split at h
  · cases h
  simp only [Sig.body] at h
  split at h
  · split at h
    · cases h; cases hu
    · next hc => cases h; exact ⟨by simpa using hc, by simp⟩
  · cases h

/-- The signals a thread emits. -/
def emits (g : SigId) : Frame → Bool
  | .notifying g' _ => g' == g
  | _ => false

structure Locks (sigs : SigId → Sig.State Nat) (owner : SigId → Option Tid) (stk : Tid → List Frame) : Prop where
  own : ∀ g t, (stk t).countP (emits g) = if owner g = some t then 1 else 0
  em : ∀ g, (sigs g).emission = none ↔ owner g = none

/-- Steps of a signal that do not begin or end an emission. -/
theorem Locks.sig {sigs owner stk} (h : Locks sigs owner stk) {g : SigId} {x : Sig.State Nat} (hx : x.emission = none ↔ (sigs g).emission = none) : Locks (upd sigs g x) owner stk := by
  refine ⟨h.own, fun g' => ?_⟩
  by_cases e : g' = g
  · subst e; rw [upd_same, hx]; exact h.em g'
  · rw [upd_other _ _ e]; exact h.em g'

/-- Frames that are not emissions. -/
theorem Locks.swap {sigs owner stk} (h : Locks sigs owner stk) {t : Tid} {st : List Frame} (hc : ∀ g, st.countP (emits g) = (stk t).countP (emits g)) : Locks sigs owner (upd stk t st) := by
  refine ⟨fun g t' => ?_, h.em⟩
  by_cases e : t' = t
  · subst e; rw [upd_same, hc]; exact h.own g t'
  · rw [upd_other _ _ e]; exact h.own g t'

/-- An emission begins. -/
theorem Locks.begins {sigs owner stk} (h : Locks sigs owner stk) {t : Tid} {g : SigId} {a : Nat} {w : Want} {rest : List Frame} {x : Sig.State Nat} (hr : stk t = .wants g w :: rest)
    (hfree : owner g = none) (e2 : x.emission ≠ none) : Locks (upd sigs g x) (upd owner g (some t)) (upd stk t (.notifying g a :: rest)) := by
  refine ⟨fun g' t' => ?_, fun g' => ?_⟩
  · have hold := h.own g' t'
    by_cases et : t' = t
    · subst et
      rw [upd_same, List.countP_cons]
      rw [hr, List.countP_cons] at hold
      by_cases eg : g' = g
      · subst eg
        simp only [upd_same, emits, beq_self_eq_true, if_true]
        rw [hfree] at hold
        simp [emits] at hold ⊢
        exact hold
      · rw [upd_other _ _ eg]
        simp only [emits, Bool.false_eq_true, if_false, Nat.add_zero] at hold
        rw [hold]
        simp [emits, Ne.symm eg]
    · rw [upd_other _ _ et]
      by_cases eg : g' = g
      · subst eg
        rw [upd_same, hold, hfree]
        simp [Ne.symm et]
      · rw [upd_other _ _ eg]; exact hold
  · by_cases eg : g' = g
    · subst eg; simp [e2]
    · rw [upd_other _ _ eg, upd_other _ _ eg]; exact h.em g'

/-- An emission ends. -/
theorem Locks.ends {sigs owner stk} (h : Locks sigs owner stk) {t : Tid} {g : SigId} {b : Nat} {rest : List Frame} {x : Sig.State Nat} (hr : stk t = .notifying g b :: rest)
    (hown : owner g = some t) (he : x.emission = none) : Locks (upd sigs g x) (upd owner g none) (upd stk t rest) := by
  refine ⟨fun g' t' => ?_, fun g' => ?_⟩
  · have hold := h.own g' t'
    by_cases et : t' = t
    · subst et
      rw [upd_same]
      rw [hr, List.countP_cons] at hold
      by_cases eg : g' = g
      · subst eg
        simp [emits, hown] at hold ⊢
        exact hold
      · rw [upd_other _ _ eg]
        rw [← hold]; simp [emits, Ne.symm eg]
    · rw [upd_other _ _ et]
      by_cases eg : g' = g
      · subst eg
        rw [upd_same, hold, hown]
        simp [Ne.symm et]
      · rw [upd_other _ _ eg]; exact hold
  · by_cases eg : g' = g
    · subst eg; simp [he]
    · rw [upd_other _ _ eg, upd_other _ _ eg]; exact h.em g'

theorem Locks.sigStep {s s' : State} {t : Tid} {g : SigId} {a : Sig.Act Nat} (h : Locks s.sigs s.owner s.stk) (hs : sigStep s t g a = some s') (h1 : ∀ b, a ≠ .emit b) (h2 : a ≠ .iter) :
    Locks s'.sigs s'.owner s'.stk := by
  obtain ⟨x, es, a1, a2, a3, rfl⟩ := sigStep_spec hs
  exact h.sig (sig_em a1 h1 h2)

theorem locks_abandon {s s' : State} {t : Tid} {g : SigId} {sl : SlotId} (h : Locks s.sigs s.owner s.stk) (hs : abandon s t g sl = some s') : Locks s'.sigs s'.owner s'.stk := by
  unfold abandon at hs
  split at hs
  · cases hs
  · next n _ =>
    cases h1 : sigStep s t g (.disconnect n) with
    | none => rw [h1] at hs; cases hs
    | some s1 =>
      rw [h1] at hs
      exact (h.sigStep h1 (by simp) (by simp)).sigStep hs (by simp) (by simp)

theorem locks_start {s s' : State} {t : Tid} {g : SigId} {sl : SlotId} {a : Nat} {rest : List Frame} (h : Locks s.sigs s.owner s.stk) (hr : s.stk t = rest)
    (hs : start s t g sl a rest = some s') : Locks s'.sigs s'.owner s'.stk := by
  unfold start at hs
  split at hs
  · cases hs
    exact h.swap (by intro g'; rw [hr, List.countP_cons]; simp [emits])
  · exact Locks.sigStep (s := { s with jobs := s.jobs ++ [(g, sl, a)], log := s.log ++ [.posted t g sl a] }) h hs (by simp) (by simp)
  · split at hs
    · cases hs
      exact h.swap (by intro g'; rw [hr, List.countP_cons]; simp [emits])
    · exact locks_abandon h hs
  · split at hs
    · exact Locks.sigStep (s := { s with jobs := s.jobs ++ [(g, sl, a)], log := s.log ++ [.posted t g sl a] }) h hs (by simp) (by simp)
    · exact locks_abandon h hs
  · split at hs
    · cases hs
      exact h.swap (by intro g'; rw [hr, List.countP_cons, List.countP_cons]; simp [emits])
    · exact locks_abandon h hs

theorem locks_step {s s' : State} {a : Act} (h : Locks s.sigs s.owner s.stk) (hs : step s a = some s') (hu' : s'.ub = false) : Locks s'.sigs s'.owner s'.stk := by
  unfold step at hs
  split at hs
  · cases hs
  · next hu =>
    cases a with
    | call t g w =>
      simp only [body] at hs
      split at hs
      · cases hs; exact h.swap (by intro g'; rw [List.countP_cons]; simp [emits])
      · cases hs
    | enter t =>
      simp only [body] at hs
      split at hs
      · next g w rest hr =>
        have hpop : Locks s.sigs s.owner (upd s.stk t rest) := h.swap (by intro g'; rw [hr, List.countP_cons]; simp [emits])
        split at hs
        · cases w with
          | emit a =>
            simp only [entered] at hs
            split at hs
            · cases hs; exact hpop
            · next hc =>
              obtain ⟨x, es, a1, a2, a3, rfl⟩ := sigStep_spec hs
              simp only [Bool.or_eq_false_iff] at hu'
              obtain ⟨e1, e2⟩ := sig_emit_new a1 (fun e => hc (.inr e)) hu'.2
              have hfree := (h.em g).1 e1
              exact h.begins hr hfree e2
          | connect k =>
            simp only [entered] at hs
            split at hs
            · cases hs; exact hpop
            · exact Locks.sigStep (s := { s with
                stk := upd s.stk t rest, kinds := upd s.kinds g (upd (s.kinds g) (s.sigs g).nextSlot k)
                log := s.log ++ [.connected t g (s.sigs g).nextSlot k] }) hpop hs (by cases k.aware <;> simp) (by cases k.aware <;> simp)
          | op a =>
            simp only [entered] at hs
            split at hs
            · next hop =>
              split at hs
              · next s1 h1 =>
                cases hs
                exact Locks.sigStep (s := { s with stk := upd s.stk t rest, log := s.log ++ (if a = .destroy ∧ (s.sigs g).emission = none then [.destroyed t g] else []) }) hpop h1
                  (by rintro b rfl; simp [opOk] at hop) (by rintro rfl; simp [opOk] at hop)
              · cases hs; exact hpop
            · cases hs; exact hpop
        · cases hs
      · cases hs
    | iter t =>
      simp only [body] at hs
      split at hs
      · next g b rest hr =>
        cases h0 : sigStep s t g .iter with
        | none => rw [h0] at hs; cases hs
        | some s1 =>
          rw [h0] at hs
          obtain ⟨x, es, a1, a2, -, rfl⟩ := sigStep_spec h0
          simp only [upd_same] at hs
          have hown : s.owner g = some t := by
            have := h.own g t
            rw [hr, List.countP_cons] at this
            by_cases e : s.owner g = some t
            · exact e
            · rw [if_neg e] at this; simp [emits] at this
          have hsome : (s.sigs g).emission ≠ none := by
            intro e; rw [h.em g, hown] at e; cases e
          rcases Sig.iter_cases a1 with ⟨he, hl⟩ | ⟨a, i, he, hl⟩ | ⟨a, i, tk, sl, he, hl, hmem, hsl⟩
          · rw [he] at hs
            cases hs
            exact h.ends hr hown he
          · rw [he] at hs
            cases hs
            exact h.sig (by simp [he, hsome])
          · rw [he] at hs
            simp only at hs
            exact locks_start (s := { s with sigs := upd s.sigs g x, ub := s.ub || x.ub, log := s.log ++ es.map (.sig t g) }) (h.sig (by simp [he, hsome])) hr hs
      · cases hs
    | ret t =>
      simp only [body] at hs
      split at hs
      · next g sl a o rest hr =>
        have hpop : Locks s.sigs s.owner (upd s.stk t rest) := h.swap (by intro g'; rw [hr, List.countP_cons]; simp [emits])
        obtain ⟨x, es, a1, a2, a3, rfl⟩ := sigStep_spec hs
        cases o with
        | none => exact hpop.sig (sig_em a1 (by simp) (by simp))
        | some o => exact hpop.sig (sig_em a1 (by simp) (by simp))
      · next g sl h' a rest hr =>
        have hpop : Locks s.sigs s.owner (upd s.stk t rest) := h.swap (by intro g'; rw [hr, List.countP_cons]; simp [emits])
        exact Locks.sigStep (s := { s with stk := upd s.stk t rest, log := s.log ++ [.forwarded t g sl h' a] }) hpop hs (by simp) (by simp)
      · next g sl a rest hr =>
        cases hs
        exact h.swap (by intro g'; rw [hr, List.countP_cons]; simp [emits])
      · cases hs
    | release o =>
      simp only [body] at hs
      split at hs
      · cases hs; exact h
      · cases hs
    | runJob t k =>
      simp only [body] at hs
      split at hs
      · split at hs
        · cases hs; exact h.swap (by intro g'; rw [List.countP_cons]; simp [emits])
        · cases hs
      · cases hs
    | dropJob k =>
      simp only [body] at hs
      split at hs
      · cases hs; exact h
      · cases hs

theorem step_ub {s s' : State} {a : Act} (hs : step s a = some s') : s.ub = false := by
  unfold step at hs
  split at hs
  · cases hs
  · next hu => simpa using hu

theorem locks_run {as : List Act} {s s' : State} (h : s.ub = false → Locks s.sigs s.owner s.stk) (hr : run s as = some s') : s'.ub = false → Locks s'.sigs s'.owner s'.stk := by
  induction as generalizing s with
  | nil => cases hr; exact h
  | cons a as ih =>
    simp only [run] at hr
    cases hs : step s a with
    | none => rw [hs] at hr; cases hr
    | some s1 =>
      rw [hs] at hr
      exact ih (fun hu => locks_step (h (step_ub hs)) hs hu) hr

theorem locks_init : Locks init.sigs init.owner init.stk := by
  refine ⟨fun g t => by simp [init], fun g => by simp [init, Sig.init]⟩

end Maf.Net
