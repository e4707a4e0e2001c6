import Verif.Lemmas.NetworkLocks
/-
The threads' stacks and the emissions of a network of signals.
-/
namespace Maf.Net

/-- What is directly below a frame. -/
def Below : Frame → List Frame → Prop
  | .wants _ _, r | .notifying _ _, r => ∀ f r', r = f :: r' → f.isUser = true ∨ ∃ g sl h a, f = .fwd g sl h a
  | .user g _ _ _, r | .fwd g _ _ _, r => ∃ b r', r = .notifying g b :: r'
  | .job _ _ _, r => ∀ f r', r = f :: r' → f.isUser = true

def Linked : List Frame → Prop
  | [] => True
  | f :: r => Below f r ∧ Linked r

def Looping (x : Sig.State Nat) : Prop := ∃ a i, x.emission = some ⟨a, i, none⟩
def Busy (x : Sig.State Nat) (sl : SlotId) : Prop := ∃ a i tk, x.emission = some ⟨a, i, some ⟨tk, some sl⟩⟩

/-- The frame is a call of a slot. -/
def inSlot (g : SigId) (sl : SlotId) : Frame → Prop
  | .user g' sl' _ _ | .fwd g' sl' _ _ => g' = g ∧ sl' = sl
  | _ => False

structure Agree (sigs : SigId → Sig.State Nat) (st : List Frame) : Prop where
  linked : Linked st
  top : ∀ g b r, st = .notifying g b :: r → Looping (sigs g)
  slots : ∀ f ∈ st, ∀ g sl, inSlot g sl f → Busy (sigs g) sl

theorem inSlot_below {st : List Frame} (h : Linked st) {f : Frame} (hf : f ∈ st) {g sl} (hi : inSlot g sl f) : ∃ b, .notifying g b ∈ st := by
  induction st with
  | nil => cases hf
  | cons x r ih =>
    rcases List.mem_cons.1 hf with rfl | hf
    · cases f with
      | user g' sl' a o =>
        obtain ⟨rfl, rfl⟩ := hi
        obtain ⟨b, r', rfl⟩ := h.1
        exact ⟨b, by simp⟩
      | fwd g' sl' h' a =>
        obtain ⟨rfl, rfl⟩ := hi
        obtain ⟨b, r', rfl⟩ := h.1
        exact ⟨b, by simp⟩
      | _ => exact hi.elim
    · obtain ⟨b, hb⟩ := ih h.2 hf
      exact ⟨b, List.mem_cons_of_mem _ hb⟩

theorem Agree.other {sigs st} (h : Agree sigs st) {g : SigId} (x : Sig.State Nat) (hn : ∀ b, .notifying g b ∉ st) : Agree (upd sigs g x) st := by
  refine ⟨h.linked, ?_, ?_⟩
  · intro g' b r hs
    have : g' ≠ g := by rintro rfl; exact hn b (by rw [hs]; simp)
    rw [upd_other _ _ this]; exact h.top g' b r hs
  · intro f hf g' sl hi
    have : g' ≠ g := by
      rintro rfl
      obtain ⟨b, hb⟩ := inSlot_below h.linked hf hi
      exact hn b hb
    rw [upd_other _ _ this]; exact h.slots f hf g' sl hi

theorem Agree.same {sigs st} (h : Agree sigs st) {g : SigId} {x : Sig.State Nat} (hx : x.emission = (sigs g).emission) : Agree (upd sigs g x) st := by
  refine ⟨h.linked, ?_, ?_⟩
  · intro g' b r hs
    have := h.top g' b r hs
    by_cases e : g' = g
    · subst e; rw [upd_same]; unfold Looping; rw [hx]; exact this
    · rw [upd_other _ _ e]; exact this
  · intro f hf g' sl hi
    have := h.slots f hf g' sl hi
    by_cases e : g' = g
    · subst e; rw [upd_same]; unfold Busy; rw [hx]; exact this
    · rw [upd_other _ _ e]; exact this

/-- A frame that waits or emits goes. -/
theorem Agree.tail {sigs f r} (h : Agree sigs (f :: r)) (hf : (∃ g w, f = .wants g w) ∨ (∃ g a, f = .notifying g a) ∨ ∃ g sl a, f = .job g sl a) : Agree sigs r := by
  refine ⟨h.linked.2, ?_, fun x hx => h.slots x (List.mem_cons_of_mem _ hx)⟩
  intro g b r' hs
  exfalso
  have hb := h.linked.1
  rcases hf with ⟨g', w, rfl⟩ | ⟨g', a, rfl⟩ | ⟨g', sl, a, rfl⟩
  · rcases hb _ _ hs with h1 | ⟨_, _, _, _, h1⟩
    · cases h1
    · cases h1
  · rcases hb _ _ hs with h1 | ⟨_, _, _, _, h1⟩
    · cases h1
    · cases h1
  · have := hb _ _ hs
    cases this

theorem Agree.loop {sigs r} (h : Agree sigs r) {g : SigId} {b : Nat} {x : Sig.State Nat} (hn : ∀ b, .notifying g b ∉ r) (hl : Below (.notifying g b) r) (hx : Looping x) :
    Agree (upd sigs g x) (.notifying g b :: r) := by
  have ho := h.other x hn
  refine ⟨⟨hl, h.linked⟩, ?_, ?_⟩
  · intro g' b' r' hs; cases hs; rw [upd_same]; exact hx
  · intro f hf g' sl hi
    rcases List.mem_cons.1 hf with rfl | hf
    · exact hi.elim
    · exact ho.slots f hf g' sl hi

theorem Agree.busy {sigs r} (h : Agree sigs r) {g : SigId} {b : Nat} {sl : SlotId} {x : Sig.State Nat} (hn : ∀ b, .notifying g b ∉ r) (hl : Below (.notifying g b) r) (hx : Busy x sl) {f : Frame}
    (hf : (∃ a o, f = .user g sl a o) ∨ ∃ h' a, f = .fwd g sl h' a) : Agree (upd sigs g x) (f :: .notifying g b :: r) := by
  have ho := h.other x hn
  refine ⟨⟨?_, hl, h.linked⟩, ?_, ?_⟩
  · rcases hf with ⟨a, o, rfl⟩ | ⟨h', a, rfl⟩ <;> exact ⟨b, r, rfl⟩
  · intro g' b' r' hs; rcases hf with ⟨a, o, rfl⟩ | ⟨h', a, rfl⟩ <;> cases hs
  · intro f' hf' g' sl' hi
    rcases List.mem_cons.1 hf' with rfl | hf'
    · rcases hf with ⟨a, o, rfl⟩ | ⟨h', a, rfl⟩ <;> obtain ⟨rfl, rfl⟩ := hi <;> rw [upd_same] <;> exact hx
    · rcases List.mem_cons.1 hf' with rfl | hf'
      · exact hi.elim
      · exact ho.slots f' hf' g' sl' hi

theorem Agree.push {sigs st} (h : Agree sigs st) {f : Frame} (hf : (∃ g w, f = .wants g w) ∨ ∃ g sl a, f = .job g sl a) (hb : Below f st) : Agree sigs (f :: st) := by
  refine ⟨⟨hb, h.linked⟩, ?_, ?_⟩
  · intro g b r hs; rcases hf with ⟨g', w, rfl⟩ | ⟨g', sl, a, rfl⟩ <;> cases hs
  · intro f' hf' g' sl' hi
    rcases List.mem_cons.1 hf' with rfl | hf'
    · rcases hf with ⟨g'', w, rfl⟩ | ⟨g'', sl, a, rfl⟩ <;> exact hi.elim
    · exact h.slots f' hf' g' sl' hi

theorem agree_upd {sigs : SigId → Sig.State Nat} {stk : Tid → List Frame} {t : Tid} {st : List Frame} (h : ∀ t', t' ≠ t → Agree sigs (stk t')) (h' : Agree sigs st) : ∀ t', Agree sigs (upd stk t st t') := by
  intro t'
  by_cases e : t' = t
  · subst e; rw [upd_same]; exact h'
  · rw [upd_other _ _ e]; exact h t' e

theorem sig_em_eq {x x' : Sig.State Nat} {a : Sig.Act Nat} (h : Sig.step x a = some x') (h1 : ∀ b, a ≠ .emit b) (h2 : a ≠ .iter) (h3 : a ≠ .ret) : x'.emission = x.emission := by
  have quiet : ∀ {x'}, Sig.Quiet x x' → x'.emission = x.emission := by rintro x' ⟨_, _, _, _, _, _, h6⟩; exact h6
  unfold Sig.step at h
  split at h
  · cases h
  cases a with
  | emit b => exact absurd rfl (h1 b)
  | iter => exact absurd rfl h2
  | ret => exact absurd rfl h3
  | connect | connectAware =>
    simp only [Sig.body] at h
    split at h
    · cases h; rfl
    · cases h
  | keep =>
    simp only [Sig.body] at h
    split at h
    · cases h; rfl
    · cases h
  | disconnect n =>
    simp only [Sig.body] at h
    split at h
    · cases h; exact quiet (Sig.quiet_disconnect _ _)
    · cases h
  | reconnect n =>
    simp only [Sig.body] at h
    split at h
    · cases h; exact quiet (Sig.quiet_reconnect _ _)
    · cases h
  | drop n =>
    simp only [Sig.body] at h
    split at h
    · cases h; exact quiet (Sig.quiet_drop _ _)
    · cases h
  | scopeEnd n =>
    simp only [Sig.body] at h
    split at h
    · cases h
      split
      · exact quiet ((Sig.quiet_disconnect _ _).trans (Sig.quiet_drop _ _))
      · exact quiet (Sig.quiet_drop _ _)
    · cases h
  | clear =>
    simp only [Sig.body] at h
    split at h
    · split at h <;> cases h <;> rfl
    · cases h
  | destroy =>
    simp only [Sig.body] at h
    split at h
    · split at h <;> cases h <;> rfl
    · cases h

theorem sig_ret {x x' : Sig.State Nat} (h : Sig.step x .ret = some x') : Looping x' := by
  unfold Sig.step at h
  split at h
  · cases h
  simp only [Sig.body] at h
  split at h
  · cases h; exact ⟨_, _, rfl⟩
  · cases h

theorem sig_emit_loop {x x' : Sig.State Nat} {a : Nat} (h : Sig.step x (.emit a) = some x') (hn : x.slots ≠ []) (hu : x'.ub = false) : Looping x' := by
  unfold Sig.step at h
  split at h
  · cases h
  simp only [Sig.body] at h
  split at h
  · split at h
    · cases h; cases hu
    · cases h; exact ⟨_, _, rfl⟩
  · cases h

theorem sig_ub_self {x x' : Sig.State Nat} {a : Sig.Act Nat} (h : Sig.step x a = some x') : x.ub = false := by
  unfold Sig.step at h
  split at h
  · cases h
  · next hu => simpa using hu

theorem locks_none {sigs owner stk} (h : Locks sigs owner stk) {g : SigId} {t : Tid} (ho : owner g ≠ some t) : ∀ b, .notifying g b ∉ stk t := by
  intro b hb
  have := h.own g t
  rw [if_neg ho, List.countP_eq_zero] at this
  exact this _ hb (by simp [emits])

theorem locks_rest {sigs owner stk} (h : Locks sigs owner stk) {g : SigId} {t : Tid} {b : Nat} {pre r : List Frame} (hs : stk t = pre ++ .notifying g b :: r) : owner g = some t ∧ ∀ b', .notifying g b' ∉ r := by
  have := h.own g t
  have ho : owner g = some t := by
    by_cases e : owner g = some t
    · exact e
    · exact absurd (by rw [hs]; simp) (locks_none h e b)
  refine ⟨ho, ?_⟩
  rw [if_pos ho, hs, List.countP_append, List.countP_cons] at this
  intro b' hb
  have h1 : 0 < r.countP (emits g) := List.countP_pos_iff.2 ⟨_, hb, by simp [emits]⟩
  have h2 : (if emits g (.notifying g b) = true then 1 else 0) = 1 := by simp [emits]
  omega

theorem below_call {s : State} {t : Tid} (h : canCall s t = true) : ∀ f r', s.stk t = f :: r' → f.isUser = true := by
  intro f r' hs
  unfold canCall at h
  rw [hs] at h; exact h

theorem agree_start {s s' : State} {t : Tid} {g : SigId} {sl : SlotId} {a b : Nat} {r : List Frame} (hst : s.stk t = .notifying g b :: r)
    (ho : ∀ t', t' ≠ t → Agree s.sigs (s.stk t') ∧ ∀ b, .notifying g b ∉ s.stk t') (sigs0 : SigId → Sig.State Nat) (x : Sig.State Nat) (hx : s.sigs = upd sigs0 g x)
    (hr : Agree sigs0 r) (hn : ∀ b, .notifying g b ∉ r) (hl : Below (.notifying g b) r) (hbusy : Busy x sl) (hs : start s t g sl a (.notifying g b :: r) = some s') (hu : s'.ub = false)
    (hab : ∀ s', abandon s t g sl = some s' → s'.ub = true) : ∀ t', Agree s'.sigs (s'.stk t') := by
  have hupd : ∀ y, upd (upd sigs0 g x) g y = upd sigs0 g y := by intro y; funext j; unfold upd; split <;> rfl
  have direct : ∀ {f : Frame} {s'' : State}, ((∃ a o, f = .user g sl a o) ∨ ∃ h' a, f = .fwd g sl h' a) → Agree s.sigs (f :: .notifying g b :: r) := by
    intro f s'' hf
    rw [hx]; exact hr.busy hn hl hbusy hf
  have posts : ∀ {s1 : State}, s1.sigs = s.sigs → s1.stk = s.stk → sigStep s1 t g .ret = some s' → ∀ t', Agree s'.sigs (s'.stk t') := by
    intro s1 e1 e2 h1
    obtain ⟨y, es, a1, a2, a3, rfl⟩ := sigStep_spec h1
    intro t'
    simp only [e1, e2]
    by_cases e : t' = t
    · subst e; rw [hst, hx, hupd]; exact hr.loop hn hl (sig_ret a1)
    · exact (ho t' e).1.other y (ho t' e).2
  unfold start at hs
  split at hs
  · cases hs
    exact agree_upd (fun t' e => (ho t' e).1) (direct (s'' := s) (.inl ⟨a, none, rfl⟩))
  · exact posts (s1 := { s with jobs := s.jobs ++ [(g, sl, a)], log := s.log ++ [.posted t g sl a] }) rfl rfl hs
  · split at hs
    · cases hs
      exact agree_upd (fun t' e => (ho t' e).1) (direct (s'' := s) (.inl ⟨a, some _, rfl⟩))
    · rw [hab _ hs] at hu; cases hu
  · split at hs
    · exact posts (s1 := { s with jobs := s.jobs ++ [(g, sl, a)], log := s.log ++ [.posted t g sl a] }) rfl rfl hs
    · rw [hab _ hs] at hu; cases hu
  · split at hs
    · cases hs
      refine agree_upd (fun t' e => (ho t' e).1) ((direct (s'' := s) (.inr ⟨_, a, rfl⟩)).push (.inl ⟨_, .emit a, rfl⟩) ?_)
      intro f r' hs; cases hs; exact .inr ⟨_, _, _, _, rfl⟩
    · rw [hab _ hs] at hu; cases hu

theorem agree_step {s s' : State} {a : Act} (hI : Inv s) (hL : Locks s.sigs s.owner s.stk) (h : ∀ t, Agree s.sigs (s.stk t)) (hs : step s a = some s') (hu' : s'.ub = false) :
    ∀ t, Agree s'.sigs (s'.stk t) := by
  have hu := step_ub hs
  have sigE : ∀ {s1 s' : State} {t : Tid} {g : SigId} {b : Sig.Act Nat}, s1.sigs = s.sigs → (∀ t, Agree s.sigs (s1.stk t)) → sigStep s1 t g b = some s' → (∀ c, b ≠ .emit c) → b ≠ .iter → b ≠ .ret →
      ∀ t, Agree s'.sigs (s'.stk t) := by
    intro s1 s' t g b e1 e2 h1 n1 n2 n3 t'
    obtain ⟨y, es, a1, a2, a3, rfl⟩ := sigStep_spec h1
    simp only
    rw [e1]
    rw [e1] at a1
    exact (e2 t').same (sig_em_eq a1 n1 n2 n3)
  unfold step at hs
  rw [if_neg (by simp [hu])] at hs
  cases a with
  | call t g w =>
    simp only [body] at hs
    split at hs
    · next hc =>
      cases hs
      exact agree_upd (fun t' _ => h t') ((h t).push (.inl ⟨g, w, rfl⟩) (fun f r' e => .inl (below_call hc.1 f r' e)))
    · cases hs
  | enter t =>
    simp only [body] at hs
    split at hs
    · next g w rest hr =>
      have hpop : ∀ t', Agree s.sigs (upd s.stk t rest t') := agree_upd (fun t' _ => h t') ((hr ▸ h t : Agree _ _).tail (.inl ⟨_, _, rfl⟩))
      split at hs
      · cases w with
        | emit a =>
          simp only [entered] at hs
          split at hs
          · cases hs; exact hpop
          · next hc =>
            obtain ⟨x, es, a1, a2, a3, rfl⟩ := sigStep_spec hs
            simp only [Bool.or_eq_false_iff] at hu'
            obtain ⟨e1, e2⟩ := sig_emit_new a1 (fun e => hc (.inr e)) hu'.2
            have hfree := (hL.em g).1 e1
            have hn : ∀ t', ∀ b, .notifying g b ∉ s.stk t' := fun t' => locks_none hL (by rw [hfree]; simp)
            refine agree_upd (fun t' _ => (h t').other x (hn t')) ?_
            have hrest : Agree s.sigs rest := (hr ▸ h t : Agree _ _).tail (.inl ⟨_, _, rfl⟩)
            refine hrest.loop ?_ ?_ (sig_emit_loop a1 (fun e => hc (.inr e)) hu'.2)
            · intro b hb; exact hn t b (by rw [hr]; exact List.mem_cons_of_mem _ hb)
            · exact (hr ▸ h t : Agree _ (.wants g (.emit a) :: rest)).linked.1
        | connect k =>
          simp only [entered] at hs
          split at hs
          · cases hs; exact hpop
          · exact sigE (s1 := { s with
              stk := upd s.stk t rest, kinds := upd s.kinds g (upd (s.kinds g) (s.sigs g).nextSlot k)
              log := s.log ++ [.connected t g (s.sigs g).nextSlot k] }) rfl hpop hs (by cases k.aware <;> simp) (by cases k.aware <;> simp) (by cases k.aware <;> simp)
        | op a =>
          simp only [entered] at hs
          split at hs
          · next hop =>
            split at hs
            · next s1 h1 =>
              cases hs
              exact sigE (s1 := { s with stk := upd s.stk t rest, log := s.log ++ (if a = .destroy ∧ (s.sigs g).emission = none then [.destroyed t g] else []) }) rfl hpop h1
                (by rintro b rfl; simp [opOk] at hop) (by rintro rfl; simp [opOk] at hop) (by rintro rfl; simp [opOk] at hop)
            · cases hs; exact hpop
          · cases hs; exact hpop
      · cases hs
    · cases hs
  | iter t =>
    simp only [body] at hs
    split at hs
    · next g b rest hr =>
      have ht : Agree s.sigs (.notifying g b :: rest) := hr ▸ h t
      obtain ⟨hown, hn⟩ := locks_rest hL (pre := []) hr
      have hno : ∀ t', t' ≠ t → ∀ b, .notifying g b ∉ s.stk t' := fun t' e => locks_none hL (by rw [hown]; intro e'; cases e'; exact e rfl)
      cases h0 : sigStep s t g .iter with
      | none => rw [h0] at hs; cases hs
      | some s1 =>
        rw [h0] at hs
        obtain ⟨x, es, a1, a2, -, rfl⟩ := sigStep_spec h0
        simp only [upd_same] at hs
        have hrest : Agree s.sigs rest := ht.tail (.inr (.inl ⟨_, _, rfl⟩))
        rcases Sig.iter_cases a1 with ⟨he, hl⟩ | ⟨a, i, he, hl⟩ | ⟨a, i, tk, sl, he, hl, hmem, hsl⟩
        · rw [he] at hs
          cases hs
          exact agree_upd (fun t' e => (h t').other x (hno t' e)) (hrest.other x hn)
        · rw [he] at hs
          cases hs
          intro t'
          by_cases e : t' = t
          · subst e
            simp only
            rw [hr]
            exact hrest.loop hn ht.linked.1 ⟨a, i, he⟩
          · exact (h t').other x (hno t' e)
        · rw [he] at hs
          simp only at hs
          refine agree_start (s := { s with sigs := upd s.sigs g x, ub := s.ub || x.ub, log := s.log ++ es.map (.sig t g) }) hr ?_ s.sigs x rfl hrest hn ht.linked.1 ⟨a, i, tk, he⟩ hs hu' ?_
          · intro t' e; exact ⟨(h t').other x (hno t' e), hno t' e⟩
          · intro s2 h2
            have hS1 := hI.core.sound.moved (t := t) a1 a2 rfl
            have hA1 : Aware (upd s.sigs g x) := (hI.aware hu).moved a1 (.inl trivial)
            exact (abandon_spec (a := a) (i := i) (tk := tk) (hS1.inv g) (hA1 g) (hS1.shut g) (by simpa only [upd_same] using he) (by simpa only [upd_same] using hmem) h2).1
    · cases hs
  | ret t =>
    have slotRet : ∀ {f : Frame} {g : SigId} {sl : SlotId} {rest : List Frame} {s1 : State}, s.stk t = f :: rest → inSlot g sl f → s1.sigs = s.sigs → s1.stk = upd s.stk t rest →
        sigStep s1 t g .ret = some s' → ∀ t', Agree s'.sigs (s'.stk t') := by
      intro f g sl rest s1 hr hi e1 e2 h1
      have ht : Agree s.sigs (f :: rest) := hr ▸ h t
      obtain ⟨b, r, rfl⟩ : ∃ b r, rest = .notifying g b :: r := by
        have := ht.linked.1
        cases f with
        | user g' sl' a o => obtain ⟨rfl, rfl⟩ := hi; exact this
        | fwd g' sl' h' a => obtain ⟨rfl, rfl⟩ := hi; exact this
        | _ => exact hi.elim
      obtain ⟨hown, hn⟩ := locks_rest hL (pre := [f]) hr
      obtain ⟨x, es, a1, a2, a3, rfl⟩ := sigStep_spec h1
      simp only [e1, e2]
      refine agree_upd (fun t' e => (h t').other x (locks_none hL (by rw [hown]; intro e'; cases e'; exact e rfl))) ?_
      refine Agree.loop ?_ hn ht.linked.2.1 (sig_ret a1)
      refine ⟨ht.linked.2.2, ?_, fun y hy => ht.slots y (List.mem_cons_of_mem _ (List.mem_cons_of_mem _ hy))⟩
      intro g' b' r' hs
      exfalso
      rcases ht.linked.2.1 _ _ hs with h1 | ⟨_, _, _, _, h1⟩
      · cases h1
      · cases h1
    simp only [body] at hs
    split at hs
    · next g sl a o rest hr =>
      refine slotRet (sl := sl) hr ⟨rfl, rfl⟩ ?_ ?_ hs
      · exact (unlock_same _ _ _ _ _).2.1
      · exact (unlock_same _ _ _ _ _).1
    · next g sl h' a rest hr =>
      exact slotRet (sl := sl) (s1 := { s with stk := upd s.stk t rest, log := s.log ++ [.forwarded t g sl h' a] }) hr ⟨rfl, rfl⟩ rfl rfl hs
    · next g sl a rest hr =>
      cases hs
      exact agree_upd (fun t' _ => h t') ((hr ▸ h t : Agree _ _).tail (.inr (.inr ⟨_, _, _, rfl⟩)))
    · cases hs
  | release o =>
    simp only [body] at hs
    split at hs
    · cases hs; exact h
    · cases hs
  | runJob t k =>
    simp only [body] at hs
    split at hs
    · split at hs
      · next hc =>
        cases hs
        exact agree_upd (fun t' _ => h t') ((h t).push (.inr ⟨_, _, _, rfl⟩) (below_call hc))
      · cases hs
    · cases hs
  | dropJob k =>
    simp only [body] at hs
    split at hs
    · cases hs; exact h
    · cases hs

theorem agree_init : ∀ t, Agree init.sigs (init.stk t) := by
  intro t
  exact ⟨trivial, by simp [init], by simp [init]⟩

theorem agree_run {as : List Act} {s s' : State} (hI : Inv s) (hL : s.ub = false → Locks s.sigs s.owner s.stk) (h : s.ub = false → ∀ t, Agree s.sigs (s.stk t)) (hr : run s as = some s') :
    s'.ub = false → ∀ t, Agree s'.sigs (s'.stk t) := by
  induction as generalizing s with
  | nil => cases hr; exact h
  | cons a as ih =>
    simp only [run] at hr
    cases hs : step s a with
    | none => rw [hs] at hr; cases hr
    | some s1 =>
      rw [hs] at hr
      exact ih (inv_step hI hs) (fun hu => locks_step (hL (step_ub hs)) hs hu) (fun hu => agree_step hI (hL (step_ub hs)) (h (step_ub hs)) hs hu) hr

end Maf.Net
