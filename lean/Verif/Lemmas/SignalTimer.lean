import Verif.Spec.SignalTimer
import Verif.Props.Timer
import Verif.Props.Signal
import Verif.Lemmas.Hist
/-
Lemmas for Props/SignalTimer.
-/
namespace Maf.Stm
open Maf.Tmr (Tm Op upd)

/-! ### What the steps of the parts add to their logs -/

/-- An operation's own event. -/
def opEv (now : Nat) : Op → List Tmr.Ev
  | .start i d => [.started i now d]
  | .stop i => [.stopped i]
  | .restart i => [.restarted i now]
  | .setCyclic _ _ => []

theorem op_log {s s' : Tmr.State} {r : List Tm} {o : Op} (h : Tmr.operate s r o = some s') : s'.log = s.log ++ opEv s.now o := by
  cases o with
  | start i d => 
    simp only [Tmr.operate] at h
    repeat' split at h
    all_goals (cases h; try simp [opEv])
  | stop i => 
    simp only [Tmr.operate] at h
    repeat' split at h
    all_goals (cases h; try simp [opEv])
  | restart i => 
    simp only [Tmr.operate] at h
    repeat' split at h
    all_goals (cases h; try simp [opEv])
  | setCyclic i b => simp only [Tmr.operate] at h; cases h; simp [opEv]

/-- Events that are neither calls on timers nor expiries. -/
def Calm : Tmr.Ev → Prop
  | .overran _ | .picked _ | .procStopped => True
  | _ => False

/-- What a step adds. -/
def Adds (now : Nat) (b : List Tmr.Ev) : Tmr.Act → Prop
  | .op o _ => b = opEv now o
  | .fire _ => b = [] ∨ ∃ i t dl c p, b = p ++ [.fired i t dl c] ∧ ∀ e ∈ p, Calm e
  | _ => ∀ e ∈ b, Calm e

theorem tmr_adds {s s' : Tmr.State} {a : Tmr.Act} (h : Tmr.step s a = some s') : ∃ b, s'.log = s.log ++ b ∧ Adds s.now b a := by
  simp only [Tmr.step] at h
  split at h
  · cases h
  cases a <;> simp only at h
  case tick => cases h; exact ⟨[], by simp, by simp [Adds]⟩
  case post => cases h; exact ⟨[], by simp, by simp [Adds]⟩
  case stopProc => cases h; exact ⟨[.procStopped], by simp, by simp [Adds, Calm]⟩
  case reuse => cases h; exact ⟨[], by simp, by simp [Adds]⟩
  case take => repeat' split at h
               all_goals (cases h; try exact ⟨[], by simp, by simp [Adds]⟩)
  case op o r =>
    split at h
    · exact ⟨_, by have := op_log h; simpa [Tmr.touch] using this, by simp [Adds, Tmr.touch]⟩
    · cases h
  case ret => repeat' split at h
              all_goals (cases h; try exact ⟨[], by simp, by simp [Adds]⟩)
  case look =>
    repeat' split at h
    all_goals (cases h; try first | exact ⟨[.picked _], rfl, by simp [Adds, Calm]⟩ | exact ⟨[], by simp, by simp [Adds]⟩)
  case waitJob => repeat' split at h
                  all_goals (cases h; try exact ⟨[], by simp, by simp [Adds]⟩)
  case waitOut => repeat' split at h
                  all_goals (cases h; try exact ⟨[], by simp, by simp [Adds]⟩)
  case fire r =>
    have k1 : ∀ {l : List Tmr.Ev} {i t dl c}, l = s.log ++ ([] ++ [.fired i t dl c]) → ∃ b, l = s.log ++ b ∧ Adds s.now b (.fire r) :=
      fun h => ⟨_, h, Or.inr ⟨_, _, _, _, [], rfl, by simp⟩⟩
    have k2 : ∀ {l : List Tmr.Ev} {i t dl c j}, l = s.log ++ ([.overran j] ++ [.fired i t dl c]) → ∃ b, l = s.log ++ b ∧ Adds s.now b (.fire r) :=
      fun h => ⟨_, h, Or.inr ⟨_, _, _, _, [.overran _], rfl, by simp [Calm]⟩⟩
    repeat' split at h
    all_goals cases h
    all_goals first
      | (refine ⟨[], ?_, Or.inl rfl⟩; simp; done)
      | exact k1 (Eq.trans (Tmr.noteEmpty_log (s := _)) rfl)
      | exact k2 (Eq.trans (Tmr.noteEmpty_log (s := _)) rfl)
      | exact k1 rfl
      | exact k2 rfl

theorem remove_log {s : Sig.State Nat} {x : Sig.SlotId} : ∃ b, (Sig.remove s x).1.log = s.log ++ b ∧ ∀ e ∈ b, ∃ t y, e = .removed t y := by
  unfold Sig.remove
  split
  · exact ⟨[], by simp, by simp⟩
  · split
    · exact ⟨[], by simp, by simp⟩
    · split
      · exact ⟨_, rfl, by simp⟩
      · exact ⟨_, rfl, by simp⟩

theorem disconnect_log {s : Sig.State Nat} {x : Nat} : ∃ b, (Sig.disconnect s x).1.log = s.log ++ b ∧ ∀ e ∈ b, ∃ t y, e = .removed t y := by
  unfold Sig.disconnect
  split
  · split
    · rename_i sl _ _
      obtain ⟨b, hb, hr⟩ := remove_log (s := s) (x := sl)
      split <;> (rename_i hx; rw [hx] at hb; exact ⟨b, hb, hr⟩)
    · exact ⟨[], by simp, by simp⟩
  · exact ⟨[], by simp, by simp⟩

theorem dropHandle_log {s : Sig.State Nat} {x : Nat} : (Sig.dropHandle s x).log = s.log := by
  unfold Sig.dropHandle; split <;> rfl

theorem reconnect_log {s : Sig.State Nat} {x : Nat} : ∃ b, (Sig.reconnect s x).1.log = s.log ++ b ∧ ∀ e ∈ b, ∃ t y, e = .added t y := by
  unfold Sig.reconnect Sig.addUnique Sig.add
  split
  · split
    · split
      · rename_i hx; split at hx
        · cases hx
        · cases hx; exact ⟨_, rfl, by simp⟩
      · rename_i hx; split at hx
        · cases hx; exact ⟨[], by simp, by simp⟩
        · cases hx
    · exact ⟨[], by simp, by simp⟩
  · exact ⟨[], by simp, by simp⟩

theorem awareReturn_log {s : Sig.State Nat} {x : Nat} : (Sig.awareReturn s x).log = s.log := by
  unfold Sig.awareReturn; repeat' split
  all_goals rfl

/-- Neither an emission nor a call. -/
def Plain : Sig.Ev Nat → Prop
  | .emitted _ | .called _ _ _ => False
  | _ => True

def SAdds (s : Sig.State Nat) (b : List (Sig.Ev Nat)) : Sig.Act Nat → Prop
  | .emit k => b = [] ∨ b = [.emitted k]
  | .iter => s.emission.isSome = true ∧ ∀ e ∈ b, ∀ k, e ≠ .emitted k
  | _ => ∀ e ∈ b, Plain e

theorem plain_removed {b : List (Sig.Ev Nat)} (h : ∀ e ∈ b, ∃ t y, e = .removed t y) : ∀ e ∈ b, Plain e := by
  intro e he; obtain ⟨t, y, rfl⟩ := h e he; trivial

theorem plain_added {b : List (Sig.Ev Nat)} (h : ∀ e ∈ b, ∃ t y, e = .added t y) : ∀ e ∈ b, Plain e := by
  intro e he; obtain ⟨t, y, rfl⟩ := h e he; trivial

theorem plain_cleared (es : List Sig.Entry) : ∀ e ∈ es.filterMap (fun e => e.slot.map fun sl => (Sig.Ev.removed e.ticket sl : Sig.Ev Nat)), Plain e := by
  intro e he
  simp only [List.mem_filterMap, Option.map_eq_some_iff] at he
  obtain ⟨a, -, sl, -, rfl⟩ := he
  trivial

theorem sig_adds {s s' : Sig.State Nat} {a : Sig.Act Nat} (h : Sig.step s a = some s') : ∃ b, s'.log = s.log ++ b ∧ SAdds s b a := by
  simp only [Sig.step] at h
  split at h
  · cases h
  cases a <;> simp only [Sig.body] at h
  case connect => split at h <;> cases h; exact ⟨_, rfl, by simp [SAdds, Plain]⟩
  case connectAware => split at h <;> cases h; exact ⟨_, rfl, by simp [SAdds, Plain]⟩
  case keep => split at h <;> cases h; exact ⟨[], by simp, by simp [SAdds]⟩
  case disconnect x =>
    split at h <;> cases h
    obtain ⟨b, hb, hr⟩ := disconnect_log (s := s) (x := x)
    exact ⟨b, hb, plain_removed hr⟩
  case reconnect x =>
    split at h <;> cases h
    obtain ⟨b, hb, hr⟩ := reconnect_log (s := s) (x := x)
    exact ⟨b, hb, plain_added hr⟩
  case drop x => split at h <;> cases h; exact ⟨[], by simp [dropHandle_log], by simp [SAdds]⟩
  case scopeEnd x =>
    split at h <;> cases h
    rw [dropHandle_log]
    split
    · obtain ⟨b, hb, hr⟩ := disconnect_log (s := s) (x := x)
      exact ⟨b, hb, plain_removed hr⟩
    · exact ⟨[], by simp, by simp [SAdds]⟩
  case clear =>
    split at h
    · split at h <;> cases h
      · exact ⟨[], by simp, by simp [SAdds]⟩
      · exact ⟨_, rfl, plain_cleared _⟩
    · cases h
  case emit k =>
    split at h
    · split at h
      · cases h; exact ⟨[], by simp, Or.inl rfl⟩
      · split at h <;> cases h
        · exact ⟨[], by simp, Or.inl rfl⟩
        · exact ⟨_, rfl, Or.inr rfl⟩
    · cases h
  case iter =>
    split at h
    · rename_i he
      repeat' split at h
      all_goals (cases h; first | exact ⟨_, rfl, by simp [SAdds, he]⟩ | exact ⟨[], by simp, by simp [SAdds, he]⟩)
    · cases h
  case ret =>
    split at h <;> cases h
    exact ⟨_, rfl, by simp [SAdds, Plain]⟩
  case destroy =>
    split at h
    · split at h <;> cases h
      · exact ⟨[], by simp, by simp [SAdds]⟩
      · exact ⟨_, rfl, plain_cleared _⟩
    · cases h

/-! ### Projections -/

@[simp] theorem tmOf_append (a b : List Ev) : tmOf (a ++ b) = tmOf a ++ tmOf b := by simp [tmOf]
@[simp] theorem sgOf_append (i : Tm) (a b : List Ev) : sgOf i (a ++ b) = sgOf i a ++ sgOf i b := by simp [sgOf]
@[simp] theorem tmOf_tm (b : List Tmr.Ev) : tmOf (b.map .tm) = b := by simp [tmOf, List.filterMap_map, Function.comp_def]
@[simp] theorem sgOf_tm (i : Tm) (b : List Tmr.Ev) : sgOf i (b.map .tm) = [] := by simp [sgOf]
@[simp] theorem tmOf_sg (i : Tm) (b : List (Sig.Ev Nat)) : tmOf (b.map (.sg i)) = [] := by simp [tmOf]
@[simp] theorem sgOf_sg (i : Tm) (b : List (Sig.Ev Nat)) : sgOf i (b.map (.sg i)) = b := by simp [sgOf, List.filterMap_map, Function.comp_def]
theorem sgOf_other {i j : Tm} (h : i ≠ j) (b : List (Sig.Ev Nat)) : sgOf j (b.map (.sg i)) = [] := by simp [sgOf, h]
@[simp] theorem expiries_append (i : Tm) (a b : List Ev) : expiries i (a ++ b) = expiries i a + expiries i b := by simp [expiries]

/-- The rules: event `e` after history `l`. -/
def Rule (l : List Ev) : Ev → Prop
  | .sg i (.emitted k) => ∃ m t dl c, l = m ++ [.tm (.fired i t dl c)] ∧ expiries i m = k
  | .sg i (.called _ _ _) => .destroyed i ∉ l
  | .tm (.fired i _ _ _) => .destroyed i ∉ l
  | .tm (.started i _ _) => .destroyed i ∉ l
  | .tm (.restarted i _) => .destroyed i ∉ l
  | _ => True

/-- After a destruction: stopped for good. -/
def Silenced (i : Tm) (l : List Ev) : Prop := ∃ a b, l = a ++ .tm (.stopped i) :: b ∧ ∀ e ∈ b, ¬ Starts i e

structure Inv (s : State) : Prop where
  tr : ∃ bs, Tmr.run Tmr.init bs = some s.t
  sr : ∀ i, ∃ bs, Sig.run (Sig.init Nat) bs = some (s.sig i)
  tl : tmOf s.log = s.t.log
  sl : ∀ i, sgOf i s.log = (s.sig i).log
  fc : ∀ i, expiries i s.log = s.fires i
  rules : Hist Rule s.log
  dead : ∀ i, .destroyed i ∈ s.log → ((s.sig i).alive = false ∨ s.ub = true) ∧ ((s.sig i).emission = none ∨ s.ub = true) ∧ Silenced i s.log
  emits : ∀ i t dl c l1 l2, s.log = l1 ++ .tm (.fired i t dl c) :: l2 → Sig.connections (sgOf i l1) ≠ [] →
    (∃ l3, l2 = .sg i (.emitted (expiries i l1)) :: l3) ∨ (s.ub = true ∧ l2 = [])

theorem inv_init : Inv init where
  tr := ⟨[], rfl⟩
  sr := fun _ => ⟨[], rfl⟩
  tl := rfl
  sl := fun _ => rfl
  fc := fun _ => rfl
  rules := Hist.nil
  dead := by simp [init]
  emits := by intro i t dl c l1 l2 h; simp [init] at h

theorem inv_fr {s : State} (h : Inv s) (f : List (Option Tm)) : Inv { s with fr := f } := ⟨h.tr, h.sr, h.tl, h.sl, h.fc, h.rules, h.dead, h.emits⟩

theorem tmr_run_snoc {bs : List Tmr.Act} {s s' t : Tmr.State} {a : Tmr.Act} (h : Tmr.run t bs = some s) (hs : Tmr.step s a = some s') : Tmr.run t (bs ++ [a]) = some s' := by
  induction bs generalizing t with
  | nil => cases h; simp [Tmr.run, hs]
  | cons b bs ih =>
    simp only [Tmr.run, List.cons_append] at h ⊢
    cases hx : Tmr.step t b with
    | none => simp [hx] at h
    | some u => simp only [hx, Option.bind_some] at h ⊢; exact ih h

theorem sig_run_snoc {bs : List (Sig.Act Nat)} {s s' t : Sig.State Nat} {a : Sig.Act Nat} (h : Sig.run t bs = some s) (hs : Sig.step s a = some s') : Sig.run t (bs ++ [a]) = some s' := by
  induction bs generalizing t with
  | nil => cases h; simp [Sig.run, hs]
  | cons b bs ih =>
    simp only [Sig.run, List.cons_append] at h ⊢
    cases hx : Sig.step t b with
    | none => simp [hx] at h
    | some u => simp only [hx, Option.bind_some] at h ⊢; exact ih h

theorem onTimer_eq {s s' : State} {a : Tmr.Act} (h : onTimer s a = some s') : ∃ t' b, Tmr.step s.t a = some t' ∧ t'.log = s.t.log ++ b ∧ Adds s.t.now b a ∧
    s' = { s with t := t', ub := s.ub || t'.ub, log := s.log ++ b.map .tm } := by
  simp only [onTimer, Option.map_eq_some_iff] at h
  obtain ⟨t', ht, rfl⟩ := h
  obtain ⟨b, hb, ha⟩ := tmr_adds ht
  exact ⟨t', b, ht, hb, ha, by simp [news, hb]⟩

theorem onSignal_eq {s s' : State} {i : Tm} {a : Sig.Act Nat} (h : onSignal s i a = some s') : ∃ g b, Sig.step (s.sig i) a = some g ∧ g.log = (s.sig i).log ++ b ∧ SAdds (s.sig i) b a ∧
    s' = { s with sig := upd s.sig i g, ub := s.ub || g.ub, log := s.log ++ b.map (.sg i) } := by
  simp only [onSignal, Option.map_eq_some_iff] at h
  obtain ⟨t', ht, rfl⟩ := h
  obtain ⟨b, hb, ha⟩ := sig_adds ht
  exact ⟨t', b, ht, hb, ha, by simp [news, hb]⟩

theorem silenced_append {i : Tm} {l b : List Ev} (h : Silenced i l) (hb : ∀ e ∈ b, ¬ Starts i e) : Silenced i (l ++ b) := by
  obtain ⟨x, y, rfl, hy⟩ := h
  refine ⟨x, y ++ b, by simp, ?_⟩
  intro e he
  rcases List.mem_append.1 he with h | h
  · exact hy e h
  · exact hb e h

theorem emits_append {l b : List Ev} {u : Bool} (h : ∀ i t dl c l1 l2, l = l1 ++ .tm (.fired i t dl c) :: l2 → Sig.connections (sgOf i l1) ≠ [] →
    ∃ l3, l2 = .sg i (.emitted (expiries i l1)) :: l3) (hb : ∀ e ∈ b, ∀ i, isFired i e = false) :
    ∀ i t dl c l1 l2, l ++ b = l1 ++ .tm (.fired i t dl c) :: l2 → Sig.connections (sgOf i l1) ≠ [] →
    (∃ l3, l2 = .sg i (.emitted (expiries i l1)) :: l3) ∨ (u = true ∧ l2 = []) := by
  intro i t dl c l1 l2 hl hc
  rcases List.append_eq_append_iff.1 hl with ⟨x, hx, hy⟩ | ⟨x, hx, hy⟩
  · have := hb (.tm (.fired i t dl c)) (by rw [hy]; simp) i
    simp [isFired] at this
  · cases x with
    | nil =>
      have := hb (.tm (.fired i t dl c)) (by simp at hy; simp [← hy]) i
      simp [isFired] at this
    | cons e x =>
      simp at hy
      obtain ⟨rfl, rfl⟩ := hy
      obtain ⟨l3, rfl⟩ := h i t dl c l1 x hx hc
      exact Or.inl ⟨l3 ++ b, rfl⟩

theorem Inv.strict {s : State} (h : Inv s) (hu : s.ub = false) : ∀ i t dl c l1 l2, s.log = l1 ++ .tm (.fired i t dl c) :: l2 → Sig.connections (sgOf i l1) ≠ [] →
    ∃ l3, l2 = .sg i (.emitted (expiries i l1)) :: l3 := by
  intro i t dl c l1 l2 hl hc
  rcases h.emits i t dl c l1 l2 hl hc with h | ⟨h, -⟩
  · exact h
  · rw [hu] at h; cases h

theorem inv_tm {s : State} {t' : Tmr.State} {b : List Tmr.Ev} {a : Tmr.Act} (h : Inv s) (hu : s.ub = false) (ht : Tmr.step s.t a = some t') (hb : t'.log = s.t.log ++ b)
    (hnf : ∀ e ∈ b, ∀ i, isFired i (.tm e) = false) (hst : ∀ e ∈ b, ∀ i, Starts i (.tm e) → (s.sig i).alive = true) :
    Inv { s with t := t', ub := s.ub || t'.ub, log := s.log ++ b.map .tm } := by
  have hdst : ∀ i, Ev.destroyed i ∈ s.log ++ b.map .tm → Ev.destroyed i ∈ s.log := by
    intro i hi; simpa using hi
  refine ⟨?_, h.sr, ?_, ?_, ?_, ?_, ?_, ?_⟩
  · obtain ⟨bs, hbs⟩ := h.tr; exact ⟨bs ++ [a], tmr_run_snoc hbs ht⟩
  · simp [h.tl, hb]
  · intro i; simp [h.sl]
  · intro i
    have : expiries i (b.map .tm) = 0 := by
      simp only [expiries, List.countP_eq_zero, List.mem_map]
      rintro x ⟨e, he, rfl⟩; simp [hnf e he i]
    simp [this, h.fc]
  · have : ∀ c : List Tmr.Ev, (∀ e ∈ c, e ∈ b) → Hist Rule (s.log ++ c.map .tm) := by
      refine snoc_induct (by intro _; simpa using h.rules) ?_
      intro c e ih hc
      have hh := ih fun x hx => hc x (by simp [hx])
      have he := hc e (by simp)
      rw [List.map_append, ← List.append_assoc]
      refine hh.one ?_
      have key : ∀ i, Starts i (.tm e) → Ev.destroyed i ∉ s.log ++ c.map .tm := by
        intro i hi hd
        have := (h.dead i (by simpa using hd)).1
        rw [hst e he i hi, hu] at this; simp at this
      cases e with
      | fired i t dl c => have := hnf _ he i; simp [isFired] at this
      | started i t d => exact key i rfl
      | restarted i t => exact key i rfl
      | _ => trivial
    exact this b fun _ h => h
  · intro i hi
    obtain ⟨h1, h2, h3⟩ := h.dead i (hdst i hi)
    refine ⟨h1.imp id (by simp_all), h2.imp id (by simp_all), silenced_append h3 ?_⟩
    simp only [List.mem_map]
    rintro x ⟨e, he, rfl⟩ hx
    rw [hst e he i hx, hu] at h1; simp at h1
  · have := emits_append (b := b.map .tm) (u := s.ub || t'.ub) (h.strict hu)
      (by simp only [List.mem_map]; rintro x ⟨e, he, rfl⟩ i; exact hnf e he i)
    exact this


/-- A step of the timers that is not an expiry. -/
theorem inv_timer {s s' : State} {a : Tmr.Act} (h : Inv s) (hu : s.ub = false) (hs : onTimer s a = some s') (hf : ∀ r, a ≠ .fire r)
    (ho : ∀ o r, a = .op o r → (s.sig (opTm o)).alive = true) : Inv s' := by
  obtain ⟨t', b, ht, hb, ha, rfl⟩ := onTimer_eq hs
  have hnf : ∀ e ∈ b, ∀ i, isFired i (.tm e) = false := by
    intro e he i
    cases a with
    | fire r => exact absurd rfl (hf r)
    | op o r =>
      simp only [Adds] at ha; subst ha
      cases o <;> simp [opEv] at he <;> subst he <;> rfl
    | _ => have := ha e he; cases e <;> simp_all [Calm, isFired]
  have hst : ∀ e ∈ b, ∀ i, Starts i (.tm e) → (s.sig i).alive = true := by
    intro e he i hs
    cases a with
    | fire r => exact absurd rfl (hf r)
    | op o r =>
      have := ho o r rfl
      simp only [Adds] at ha; subst ha
      cases o <;> simp [opEv] at he <;> subst he <;> simp_all [Starts, opTm]
    | _ => have := ha e he; cases e <;> simp_all [Calm, Starts]
  exact inv_tm h hu ht hb hnf hst

/-! ### Steps of signals -/

theorem remove_keeps (s : Sig.State Nat) (x : Nat) : (Sig.remove s x).1.alive = s.alive ∧ (Sig.remove s x).1.emission = s.emission := by
  unfold Sig.remove; repeat' split
  all_goals exact ⟨rfl, rfl⟩

theorem disconnect_keeps (s : Sig.State Nat) (x : Nat) : (Sig.disconnect s x).1.alive = s.alive ∧ (Sig.disconnect s x).1.emission = s.emission := by
  unfold Sig.disconnect
  split
  · split
    · rename_i sl _ _
      have hb := remove_keeps s sl
      split <;> (rename_i hx; rw [hx] at hb; exact hb)
    · exact ⟨rfl, rfl⟩
  · exact ⟨rfl, rfl⟩

theorem dropHandle_keeps (s : Sig.State Nat) (x : Nat) : (Sig.dropHandle s x).alive = s.alive ∧ (Sig.dropHandle s x).emission = s.emission := by
  unfold Sig.dropHandle; split <;> exact ⟨rfl, rfl⟩

theorem reconnect_keeps (s : Sig.State Nat) (x : Nat) : (Sig.reconnect s x).1.alive = s.alive ∧ (Sig.reconnect s x).1.emission = s.emission := by
  unfold Sig.reconnect Sig.addUnique Sig.add
  split
  · split
    · split
      · rename_i hx; split at hx
        · cases hx
        · cases hx; exact ⟨rfl, rfl⟩
      · rename_i hx; split at hx
        · cases hx; exact ⟨rfl, rfl⟩
        · cases hx
    · exact ⟨rfl, rfl⟩
  · exact ⟨rfl, rfl⟩

theorem awareReturn_keeps (s : Sig.State Nat) (x : Nat) : (Sig.awareReturn s x).alive = s.alive := by
  unfold Sig.awareReturn; repeat' split
  all_goals rfl

theorem sig_keeps {s s' : Sig.State Nat} {a : Sig.Act Nat} (h : Sig.step s a = some s') (ha : a ≠ .destroy) :
    s'.alive = s.alive ∧ ((∀ k, a ≠ .emit k) → s.emission = none → s'.emission = none) := by
  simp only [Sig.step] at h
  split at h
  · cases h
  cases a <;> simp only [Sig.body] at h
  case connect => split at h <;> cases h; exact ⟨rfl, fun _ h => h⟩
  case connectAware => split at h <;> cases h; exact ⟨rfl, fun _ h => h⟩
  case keep => split at h <;> cases h; exact ⟨rfl, fun _ h => h⟩
  case disconnect x =>
    split at h <;> cases h
    obtain ⟨h1, h2⟩ := disconnect_keeps s x; exact ⟨h1, fun _ h => by rw [h2, h]⟩
  case reconnect x =>
    split at h <;> cases h
    obtain ⟨h1, h2⟩ := reconnect_keeps s x; exact ⟨h1, fun _ h => by rw [h2, h]⟩
  case drop x =>
    split at h <;> cases h
    obtain ⟨h1, h2⟩ := dropHandle_keeps s x; exact ⟨h1, fun _ h => by rw [h2, h]⟩
  case scopeEnd x =>
    split at h <;> cases h
    obtain ⟨h1, h2⟩ := dropHandle_keeps (if Sig.connected s x = true then (Sig.disconnect s x).1 else s) x
    rw [h1, h2]
    split
    · obtain ⟨h1, h2⟩ := disconnect_keeps s x; exact ⟨h1, fun _ h => by rw [h2, h]⟩
    · exact ⟨rfl, fun _ h => h⟩
  case clear =>
    split at h
    · split at h <;> cases h <;> exact ⟨rfl, fun _ h => h⟩
    · cases h
  case emit k =>
    split at h
    · split at h
      · cases h; exact ⟨rfl, fun _ h => h⟩
      · split at h <;> cases h <;> exact ⟨rfl, fun hk => absurd rfl (hk k)⟩
    · cases h
  case iter =>
    split at h
    · rename_i he
      repeat' split at h
      all_goals (cases h; exact ⟨rfl, fun _ h => by simp [he] at h⟩)
    · cases h
  case ret =>
    split at h <;> cases h
    rename_i he
    exact ⟨awareReturn_keeps _ _, fun _ h => by rw [he] at h; cases h⟩
  case destroy => exact absurd rfl ha

theorem hist_map {l : List Ev} {E : Type} (f : E → Ev) (b : List E) (h : Hist Rule l) (hb : ∀ c e d, b = c ++ e :: d → Rule (l ++ c.map f) (f e)) : Hist Rule (l ++ b.map f) := by
  have : ∀ c d, b = c ++ d → Hist Rule (l ++ c.map f) := by
    refine snoc_induct (by intro _ _; simpa using h) ?_
    intro c e ih d hc
    rw [List.map_append, ← List.append_assoc]
    exact (ih (e :: d) (by simpa using hc)).one (hb c e d (by simpa using hc))
  exact this b [] (by simp)

/-- The state after a step of the signal of `i`. -/
def withSig (s : State) (i : Tm) (g : Sig.State Nat) (b : List (Sig.Ev Nat)) : State :=
  { s with sig := upd s.sig i g, ub := s.ub || g.ub, log := s.log ++ b.map (.sg i) }

/-- All but the expiries. -/
theorem inv_sig {s : State} {i : Tm} {a : Sig.Act Nat} {g : Sig.State Nat} {b : List (Sig.Ev Nat)} (h : Inv s) (hu : s.ub = false) (hg : Sig.step (s.sig i) a = some g)
    (hb : g.log = (s.sig i).log ++ b) (ha : SAdds (s.sig i) b a) (he : ∀ k, a ≠ .emit k)
    (hd : a = .destroy → .destroyed i ∉ s.log) : Inv (withSig s i g b) := by
  have hnf : ∀ e ∈ b.map (Ev.sg i), ∀ j, isFired j e = false := by
    simp only [List.mem_map]; rintro x ⟨e, -, rfl⟩ j; rfl
  have hns : ∀ e ∈ b.map (Ev.sg i), ∀ j, ¬ Starts j e := by
    simp only [List.mem_map]; rintro x ⟨e, -, rfl⟩ j h; exact h
  have hno : ∀ e ∈ b, ∀ k, e ≠ .emitted k := by
    intro e hm k hk; subst hk
    cases a with
    | emit k => exact he k rfl
    | iter => exact ha.2 _ hm k rfl
    | _ => exact ha _ hm
  have hcl : ∀ e ∈ b, ∀ t x k, e = .called t x k → a = .iter ∧ (s.sig i).emission.isSome = true := by
    intro e hm t x k hk; subst hk
    cases a with
    | emit k => exact absurd rfl (he k)
    | iter => exact ⟨rfl, ha.1⟩
    | _ => exact (ha _ hm).elim
  refine ⟨h.tr, ?_, ?_, ?_, ?_, ?_, ?_, ?_⟩
  · intro j
    simp only [withSig, upd]
    split
    · obtain ⟨bs, hbs⟩ := h.sr i; exact ⟨bs ++ [a], sig_run_snoc hbs hg⟩
    · exact h.sr j
  · simp [withSig, h.tl]
  · intro j
    simp only [withSig, upd, sgOf_append, h.sl]
    split
    · rename_i hj; subst hj; simp [hb]
    · rename_i hj; simp [sgOf_other (Ne.symm hj)]
  · intro j
    have : expiries j (b.map (.sg i)) = 0 := by
      simp only [expiries, List.countP_eq_zero]
      intro x hx; simp [hnf x hx j]
    simp [withSig, this, h.fc]
  · refine hist_map _ _ h.rules ?_
    intro c e d hbe
    have hm : e ∈ b := by rw [hbe]; simp
    cases e with
    | emitted k => exact absurd rfl (hno _ hm k)
    | called t x k =>
      intro hx
      obtain ⟨-, hs⟩ := hcl _ hm t x k rfl
      obtain ⟨-, h2 | h2, -⟩ := h.dead i (by simpa using hx)
      · rw [h2] at hs; cases hs
      · rw [hu] at h2; cases h2
    | _ => trivial
  · intro j hj
    have hj' : Ev.destroyed j ∈ s.log := by simpa [withSig] using hj
    obtain ⟨h1, h2, h3⟩ := h.dead j hj'
    refine ⟨?_, ?_, silenced_append h3 (fun e he => hns e he j)⟩
    · simp only [withSig, upd]
      split
      · rename_i e; subst e
        rw [(sig_keeps hg (fun e => hd e hj')).1]
        exact h1.imp id (by simp_all)
      · exact h1.imp id (by simp_all)
    · simp only [withSig, upd]
      split
      · rename_i e; subst e
        rcases h2 with h2 | h2
        · exact Or.inl ((sig_keeps hg (fun e => hd e hj')).2 he h2)
        · simp [h2]
      · rcases h2 with h2 | h2 <;> simp [h2]
  · exact emits_append (b := b.map (.sg i)) (u := s.ub || g.ub) (h.strict hu) hnf

theorem inv_signal {s s' : State} {i : Tm} {a : Sig.Act Nat} (h : Inv s) (hu : s.ub = false) (hs : onSignal s i a = some s') (he : ∀ k, a ≠ .emit k)
    (hd : a ≠ .destroy) : Inv s' := by
  obtain ⟨g, b, hg, hb, ha, rfl⟩ := onSignal_eq hs
  exact inv_sig h hu hg hb ha he (fun e => absurd e hd)

theorem emit_emits {g g' : Sig.State Nat} {k : Nat} (h : Sig.step g (.emit k) = some g') (hn : g.slots ≠ []) : g'.ub = true ∨ g'.log = g.log ++ [.emitted k] := by
  simp only [Sig.step] at h
  split at h
  · cases h
  · simp only [Sig.body, if_neg hn] at h
    split at h
    · split at h <;> cases h
      · exact Or.inl rfl
      · exact Or.inr rfl
    · cases h

theorem conns_slots {g : Sig.State Nat} {bs : List (Sig.Act Nat)} (h : Sig.run (Sig.init Nat) bs = some g) (hc : Sig.connections g.log ≠ []) : g.slots ≠ [] := by
  intro he
  have := (Sig.inv_run bs g h).conns
  rw [he] at this
  exact hc (by simpa [Sig.liveOf] using this)

theorem tmOf_starts {i : Tm} {l : List Ev} (h : ∀ e ∈ l, ¬ Starts i e) : ∀ e ∈ tmOf l, ¬ Tmr.Sets i e := by
  intro e he hs
  simp only [tmOf, List.mem_filterMap] at he
  obtain ⟨x, hx, hxe⟩ := he
  cases x with
  | tm f =>
    simp at hxe; subst hxe
    refine h _ hx ?_
    cases f <;> simp_all [Tmr.Sets, Starts]
  | _ => simp at hxe

/-- A destroyed object's timer does not expire. -/
theorem fired_alive {s : State} {t' : Tmr.State} {r p i t dl c} (h : Inv s) (ht : Tmr.step s.t (.fire r) = some t') (hb : t'.log = s.t.log ++ (p ++ [.fired i t dl c]))
    (hp : ∀ e ∈ p, Calm e) : Ev.destroyed i ∉ s.log := by
  intro hd
  obtain ⟨-, -, a, b, hl, hs⟩ := h.dead i hd
  obtain ⟨bs, hbs⟩ := h.tr
  have hr := tmr_run_snoc hbs ht
  have htl : t'.log = tmOf a ++ .stopped i :: (tmOf b ++ p) ++ .fired i t dl c :: [] := by
    rw [hb, ← h.tl, hl]; simp [tmOf]
  obtain ⟨e, he, hse⟩ := Tmr.stopped_silent hr htl
  rcases List.mem_append.1 he with he | he
  · exact tmOf_starts hs e he hse
  · have := hp e he; cases e <;> simp_all [Calm, Tmr.Sets]

theorem expiries_calm {i : Tm} {p : List Tmr.Ev} (hp : ∀ e ∈ p, Calm e) : expiries i (p.map .tm) = 0 := by
  simp only [expiries, List.countP_eq_zero, List.mem_map]
  rintro x ⟨e, he, rfl⟩
  have := hp e he; cases e <;> simp_all [Calm, isFired]

/-- An expiry. -/
theorem inv_fired {s : State} {t' : Tmr.State} {r p i t dl c g b2} (h : Inv s) (hu : s.ub = false) (ht : Tmr.step s.t (.fire r) = some t') (hb : t'.log = s.t.log ++ (p ++ [.fired i t dl c]))
    (hp : ∀ e ∈ p, Calm e) (hg : Sig.step (s.sig i) (.emit (s.fires i)) = some g) (hgl : g.log = (s.sig i).log ++ b2) (f : List (Option Tm)) :
    Inv { t := t', sig := upd s.sig i g, fr := f, fires := upd s.fires i (s.fires i + 1), ub := (s.ub || t'.ub) || g.ub,
          log := (s.log ++ (p ++ [.fired i t dl c]).map .tm) ++ b2.map (.sg i) } := by
  have hnd := fired_alive h ht hb hp
  have hb2 : b2 = [] ∨ b2 = [.emitted (s.fires i)] := by
    obtain ⟨b, hb, ha⟩ := sig_adds hg
    rw [hgl] at hb; rw [List.append_cancel_left hb]; exact ha
  have hns : ∀ j, ∀ e ∈ (p ++ [Tmr.Ev.fired i t dl c]).map Ev.tm ++ b2.map (.sg i), ¬ Starts j e := by
    intro j e he
    simp only [List.mem_append, List.mem_map, List.mem_singleton] at he
    rcases he with ⟨x, hx | rfl, rfl⟩ | ⟨x, -, rfl⟩
    · have := hp x hx; cases x <;> simp_all [Calm, Starts]
    · simp [Starts]
    · simp [Starts]
  refine ⟨?_, ?_, ?_, ?_, ?_, ?_, ?_, ?_⟩
  · obtain ⟨bs, hbs⟩ := h.tr; exact ⟨_, tmr_run_snoc hbs ht⟩
  · intro j
    simp only [upd]
    split
    · obtain ⟨bs, hbs⟩ := h.sr i; exact ⟨_, sig_run_snoc hbs hg⟩
    · exact h.sr j
  · show tmOf (_ ++ _ ++ _) = _
    rw [tmOf_append, tmOf_append, tmOf_tm, tmOf_sg, h.tl, hb, List.append_nil]
  · intro j
    show sgOf j (_ ++ _ ++ _) = (upd s.sig i g j).log
    rw [sgOf_append, sgOf_append, sgOf_tm, h.sl]
    simp only [upd]
    split
    · rename_i hj; subst hj; simp [hgl]
    · rename_i hj; simp [sgOf_other (Ne.symm hj)]
  · intro j
    have h2 : expiries j (b2.map (.sg i)) = 0 := by
      simp only [expiries, List.countP_eq_zero, List.mem_map]
      rintro x ⟨e, -, rfl⟩; simp [isFired]
    show expiries j (_ ++ _ ++ _) = _
    rw [expiries_append, expiries_append, h2, List.map_append, expiries_append, expiries_calm hp, h.fc]
    simp only [upd]
    by_cases hj : j = i
    · subst hj; simp [expiries, isFired]
    · simp [expiries, isFired, hj, Ne.symm hj]
  · have h1 : Hist Rule (s.log ++ p.map .tm) := by
      refine hist_map _ _ h.rules ?_
      intro c e d hbe
      have := hp e (by rw [hbe]; simp)
      cases e <;> simp_all [Calm, Rule]
    have h2 : Hist Rule (s.log ++ (p ++ [Tmr.Ev.fired i t dl c]).map Ev.tm) := by
      rw [List.map_append, ← List.append_assoc]
      refine h1.one ?_
      simp only [Rule]; simpa using hnd
    rcases hb2 with rfl | rfl
    · simpa using h2
    · refine h2.one ?_
      exact ⟨s.log ++ p.map .tm, t, dl, c, by simp, by rw [expiries_append, expiries_calm hp, h.fc]; rfl⟩
  · intro j hj
    have hj' : Ev.destroyed j ∈ s.log := by simpa using hj
    have hne : j ≠ i := fun e => hnd (e ▸ hj')
    obtain ⟨h1, h2, h3⟩ := h.dead j hj'
    refine ⟨?_, ?_, ?_⟩
    · simp only [upd, if_neg hne]; exact h1.imp id (by simp_all)
    · simp only [upd, if_neg hne]; exact h2.imp id (by simp_all)
    · have := silenced_append h3 (hns j); rwa [← List.append_assoc] at this
  · intro j t0 dl0 c0 l1 l2 hl hc
    have hold : ∀ j t dl c l1 l2, s.log ++ p.map .tm = l1 ++ .tm (.fired j t dl c) :: l2 → Sig.connections (sgOf j l1) ≠ [] →
        ∃ l3, l2 = .sg j (.emitted (expiries j l1)) :: l3 := by
      intro j t dl c l1 l2 hl hc
      have := emits_append (b := p.map .tm) (u := false) (h.strict hu)
        (by
          simp only [List.mem_map]; rintro x ⟨e, he, rfl⟩ j
          have := hp e he; cases e <;> simp_all [Calm, isFired]) j t dl c l1 l2 hl hc
      simpa using this
    have hl' : l1 ++ .tm (.fired j t0 dl0 c0) :: l2 = (s.log ++ p.map .tm) ++ .tm (.fired i t dl c) :: b2.map (.sg i) := by
      have : l1 ++ .tm (.fired j t0 dl0 c0) :: l2 = (s.log ++ (p ++ [Tmr.Ev.fired i t dl c]).map Ev.tm) ++ b2.map (.sg i) := hl.symm
      rw [this]; simp
    rcases places hl' with ⟨rfl, he, rfl⟩ | ⟨x, hx, rfl⟩ | ⟨x, rfl, hx⟩
    · cases he
      obtain ⟨bs, hbs⟩ := h.sr i
      rw [sgOf_append, sgOf_tm, List.append_nil, h.sl] at hc
      rcases emit_emits hg (conns_slots hbs hc) with hub | hlog
      · right
        refine ⟨by simp [hub], ?_⟩
        obtain ⟨b, hb', ha'⟩ := sig_adds hg
        simp only [Sig.step] at hg
        split at hg
        · cases hg
        · simp only [Sig.body] at hg
          split at hg
          · split at hg
            · cases hg; rename_i hub' _ _; exact absurd hub hub'
            · split at hg <;> cases hg
              · have : b2 = [] := by simpa using hgl
                simp [this]
              · rename_i hub' _ _ _; exact absurd hub hub'
          · cases hg
      · left
        rw [hgl] at hlog
        rw [List.append_cancel_left hlog, expiries_append, expiries_calm hp, h.fc]
        exact ⟨[], rfl⟩
    · obtain ⟨l3, rfl⟩ := hold j t0 dl0 c0 l1 x hx hc
      left; exact ⟨l3 ++ .tm (.fired i t dl c) :: b2.map (.sg i), rfl⟩
    · have : Ev.tm (.fired j t0 dl0 c0) ∈ b2.map (Ev.sg i) := by rw [hx]; simp
      simp at this

/-- Only destroyed objects are gone. -/
def Gone (s : State) : Prop := ∀ i, (s.sig i).alive = false → .destroyed i ∈ s.log

theorem gone_timer {s s' : State} {a : Tmr.Act} (h : Gone s) (hs : onTimer s a = some s') : Gone s' := by
  obtain ⟨t', b, -, -, -, rfl⟩ := onTimer_eq hs
  intro i hi; exact List.mem_append.2 (Or.inl (h i hi))

theorem gone_signal {s s' : State} {i : Tm} {a : Sig.Act Nat} (h : Gone s) (hs : onSignal s i a = some s') (ha : a ≠ .destroy) : Gone s' := by
  obtain ⟨g, b, hg, -, -, rfl⟩ := onSignal_eq hs
  intro j hj
  refine List.mem_append.2 (Or.inl ?_)
  simp only [upd] at hj
  split at hj
  · rename_i e; subst e; rw [(sig_keeps hg ha).1] at hj; exact h j hj
  · exact h j hj

theorem destroy_end {g g' : Sig.State Nat} (h : Sig.step g .destroy = some g') : (g'.alive = false ∧ g'.emission = none) ∨ g'.ub = true := by
  simp only [Sig.step] at h
  split at h
  · cases h
  · simp only [Sig.body] at h
    split at h
    · split at h <;> cases h
      · exact Or.inr rfl
      · rename_i he; exact Or.inl ⟨rfl, by simpa using he⟩
    · cases h

theorem inv_destroy {s s1 s2 : State} {i : Tm} {r : List Tm} (h : Inv s) (hgo : Gone s) (hu : s.ub = false) (ha : (s.sig i).alive = true)
    (h1 : onTimer s (.op (.stop i) r) = some s1) (hu1 : s1.ub = false) (h2 : onSignal s1 i .destroy = some s2) :
    Inv { s2 with log := s2.log ++ [.destroyed i] } ∧ Gone { s2 with log := s2.log ++ [.destroyed i] } := by
  have hi1 : Inv s1 := inv_timer h hu h1 (by intro r; simp) (by intro o r' e; cases e; exact ha)
  have hg1 : Gone s1 := gone_timer hgo h1
  obtain ⟨t', b, ht, hb, hab, rfl⟩ := onTimer_eq h1
  simp only [Adds, opEv] at hab; subst hab
  have hnd : Ev.destroyed i ∉ s.log := by
    intro hd
    have := (h.dead i hd).1
    rw [ha, hu] at this; simp at this
  obtain ⟨g, b, hg, hgl, hgb, rfl⟩ := onSignal_eq h2
  have hi2 := inv_sig hi1 hu1 hg hgl hgb (by simp) (by intro _; simpa using hnd)
  have hsil : Silenced i (s.log ++ [.tm (.stopped i)] ++ b.map (.sg i)) :=
    ⟨s.log, b.map (.sg i), by simp, by simp only [List.mem_map]; rintro x ⟨e, -, rfl⟩ hx; exact hx⟩
  constructor
  · refine ⟨hi2.tr, hi2.sr, ?_, ?_, ?_, ?_, ?_, ?_⟩
    · have := hi2.tl; simp only [withSig] at this
      simp only [tmOf_append] at this ⊢; rw [this]; simp [tmOf]
    · intro j
      have := hi2.sl j; simp only [withSig] at this
      simp only [sgOf_append] at this ⊢; rw [this]; simp [sgOf]
    · intro j
      have := hi2.fc j; simp only [withSig] at this
      simp only [expiries_append] at this ⊢; rw [this]; simp [expiries, isFired]
    · exact hi2.rules.one trivial
    · intro j hj
      by_cases hji : j = i
      · subst hji
        refine ⟨?_, ?_, silenced_append hsil (by simp [Starts])⟩
        · simp only [upd, if_true]
          rcases destroy_end hg with ⟨h1, -⟩ | h1
          · exact Or.inl h1
          · right; simp [h1]
        · simp only [upd, if_true]
          rcases destroy_end hg with ⟨-, h1⟩ | h1
          · exact Or.inl h1
          · right; simp [h1]
      · have hj' : Ev.destroyed j ∈ (withSig { s with t := t', ub := s.ub || t'.ub, log := s.log ++ [Tmr.Ev.stopped i].map .tm } i g b).log := by
          simpa [withSig, hji] using hj
        obtain ⟨h1, h2, h3⟩ := hi2.dead j hj'
        exact ⟨h1, h2, silenced_append h3 (by simp [Starts])⟩
    · have hs := emits_append (b := b.map (.sg i) ++ [.destroyed i]) (u := (s.ub || t'.ub) || g.ub) (hi1.strict hu1)
        (by
          simp only [List.mem_append, List.mem_map, List.mem_singleton]
          rintro x (⟨e, -, rfl⟩ | rfl) j <;> rfl)
      intro j t dl c l1 l2 hl hc
      exact hs j t dl c l1 l2 (by rw [← hl]; simp) hc
  · intro j hj
    by_cases hji : j = i
    · subst hji; simp
    · simp only [upd, if_neg hji] at hj
      have := hg1 j hj
      simp only [List.mem_append] at this ⊢
      exact Or.inl (Or.inl this)

theorem inv_fire {s s1 s' : State} {r : List Tm} (h : Inv s) (hgo : Gone s) (hu : s.ub = false) (h1 : onTimer s (.fire r) = some s1) (h2 : afterFire s s1 = some s') :
    Inv s' ∧ Gone s' := by
  have hg1 := gone_timer hgo h1
  obtain ⟨t', b, ht, hb, ha, rfl⟩ := onTimer_eq h1
  rcases ha with rfl | ⟨i, t, dl, c, p, rfl, hp⟩
  · simp only [afterFire, expiredNow, news, hb, List.append_nil, List.drop_length, List.getLast?_nil] at h2
    cases h2
    exact ⟨inv_tm h hu ht hb (by simp) (by simp), hg1⟩
  · simp only [afterFire, expiredNow, news, hb, List.drop_left, List.getLast?_append, List.getLast?_singleton, Option.some_or] at h2
    simp only [emitNow] at h2
    split at h2
    · simp only [Option.map_eq_some_iff] at h2
      obtain ⟨s2, hs2, rfl⟩ := h2
      have hg2 := gone_signal hg1 hs2 (by simp)
      obtain ⟨g, b2, hg, hgl, -, rfl⟩ := onSignal_eq hs2
      exact ⟨inv_fired h hu ht hb hp hg hgl _, hg2⟩
    · rename_i hal
      exact absurd (by simpa using hgo i (by simpa using hal)) (fired_alive h ht hb hp)

theorem inv_step {s s' : State} {a : Act} (h : Inv s) (hgo : Gone s) (hs : step s a = some s') : Inv s' ∧ Gone s' := by
  simp only [step] at hs
  split at hs
  · cases hs
  rename_i hu
  have hu : s.ub = false := by simpa using hu
  have quick : ∀ {a : Tmr.Act} {s1}, onTimer s a = some s1 → (∀ r, a ≠ .fire r) → (∀ o r, a ≠ .op o r) → Inv s1 ∧ Gone s1 :=
    fun h1 hf ho => ⟨inv_timer h hu h1 hf (fun o r e => absurd e (ho o r)), gone_timer hgo h1⟩
  have fr : ∀ {s1 : State}, Inv s1 ∧ Gone s1 → ∀ f, Inv { s1 with fr := f } ∧ Gone { s1 with fr := f } := fun h1 f => ⟨inv_fr h1.1 f, h1.2⟩
  have sg : ∀ {i : Tm} {a : Sig.Act Nat} {s1}, onSignal s i a = some s1 → (∀ k, a ≠ .emit k) → a ≠ .destroy → Inv s1 ∧ Gone s1 :=
    fun h1 he hd => ⟨inv_signal h hu h1 he hd, gone_signal hgo h1 hd⟩
  cases a <;> simp only at hs
  case tick => exact quick hs (by simp) (by simp)
  case post => exact quick hs (by simp) (by simp)
  case stopProc => exact quick hs (by simp) (by simp)
  case reuse => exact quick hs (by simp) (by simp)
  case look => exact quick hs (by simp) (by simp)
  case waitOut => exact quick hs (by simp) (by simp)
  case waitJob =>
    simp only [Option.map_eq_some_iff] at hs
    obtain ⟨s1, h1, rfl⟩ := hs
    exact fr (quick h1 (by simp) (by simp)) _
  case take =>
    split at hs
    · simp only [Option.map_eq_some_iff] at hs
      obtain ⟨s1, h1, rfl⟩ := hs
      exact fr (quick h1 (by simp) (by simp)) _
    · cases hs
  case fire r =>
    simp only [Option.bind_eq_some_iff] at hs
    obtain ⟨s1, h1, h2⟩ := hs
    exact inv_fire h hgo hu h1 h2
  case timer o r =>
    split at hs
    · rename_i hc
      exact ⟨inv_timer h hu hs (by simp) (by intro o' r' e; cases e; exact hc.2), gone_timer hgo hs⟩
    · cases hs
  case conn i a =>
    split at hs
    · rename_i hc
      exact sg hs (by rintro k rfl; simp [byUser] at hc) (by rintro rfl; simp [byUser] at hc)
    · cases hs
  case iter =>
    split at hs
    · exact sg hs (by simp) (by simp)
    · cases hs
  case ret =>
    split at hs
    · simp only [Option.map_eq_some_iff] at hs
      obtain ⟨s1, h1, rfl⟩ := hs
      exact fr (quick h1 (by simp) (by simp)) _
    · simp only [slotReturns] at hs
      split at hs
      · exact sg hs (by simp) (by simp)
      · split at hs
        · cases hs
        · simp only [Option.map_eq_some_iff] at hs
          obtain ⟨s1, h1, rfl⟩ := hs
          exact fr (quick h1 (by simp) (by simp)) _
    · cases hs
  case destroy i r =>
    split at hs
    · rename_i hc
      simp only [Option.bind_eq_some_iff] at hs
      obtain ⟨s1, h1, h2⟩ := hs
      simp only [destroySignal] at h2
      split at h2
      · cases h2
        exact ⟨inv_timer h hu h1 (by simp) (by intro o' r' e; cases e; exact hc.2), gone_timer hgo h1⟩
      · rename_i hu1
        simp only [Option.map_eq_some_iff] at h2
        obtain ⟨s2, h2, rfl⟩ := h2
        exact inv_destroy h hgo hu hc.2 h1 (by simpa using hu1) h2
    · cases hs

theorem reach {as : List Act} : ∀ {s s' : State}, Inv s ∧ Gone s → run s as = some s' → Inv s' ∧ Gone s' := by
  induction as with
  | nil => intro s s' h hr; cases hr; exact h
  | cons a as ih =>
    intro s s' h hr
    simp only [run, Option.bind_eq_some_iff] at hr
    obtain ⟨u, hu, hr⟩ := hr
    exact ih (inv_step h.1 h.2 hu) hr

theorem reach_inv {as : List Act} {s : State} (hr : run init as = some s) : Inv s := (reach ⟨inv_init, by intro i h; simp [init, Sig.init] at h⟩ hr).1

end Maf.Stm
