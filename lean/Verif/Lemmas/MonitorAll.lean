import Verif.Lemmas.Monitor
import Verif.Lemmas.Hist

/-! Lemmas for runs in which clients are stopped and destroyed. -/

namespace Maf
namespace Mon
open Maf.Tmr (Tm Job Frame)

/-- What holds of the thread in every run. -/
structure J (s : State) : Prop where
  opened : s.t.closed = false
  once : ∀ i, (s.t.data i).cyclic = false
  shape : Shape s.t.stack s.cur
  st : s.t.st = .waiting ↔ Waits s.t.stack

/-- What a step can be, as far as works and the log are concerned. -/
inductive Eff (s s' : State) : Prop
  | start (i : Nat) (h : s.started i = false) (hw : s'.works = s.works ++ [.monitor i 0]) (hc : s'.cur = s.cur) (hd : s'.t.data = s.t.data) (hl : s'.log = s.log)
      (hs : s'.status = s.status) (ht : s'.tuned = s.tuned) (hst : s'.started = Tmr.upd s.started i true)
  | arrive (w : Work) (hm : (∃ i m, w = .message i m) ∨ ∃ i m, w = .server i m) (hw : s'.works = s.works ++ [w]) (hc : s'.cur = s.cur) (hd : s'.t.data = s.t.data) (hl : s'.log = s.log ++ [.came w])
      (hs : s'.status = s.status) (ht : s'.tuned = s.tuned) (hst : s'.started = s.started)
  | foreign (i : Nat) (e : Ev) (he : e = .stopped i ∨ e = .destroyed i) (hw : s'.works = s.works) (hc : s'.cur = s.cur) (hd : s'.t.data = Tmr.upd s.t.data i { s.t.data i with running := false })
      (hl : s'.log = s.log ++ [e]) (hs : s'.status = s.status) (ht : s'.tuned = s.tuned) (hst : s'.started = s.started)
  | inner (hw : s'.works = s.works) (hc : s'.cur = s.cur) (hd : s'.t.data = s.t.data) (hl : s'.log = s.log) (hs : s'.status = s.status) (ht : s'.tuned = s.tuned)
      (hst : s'.started = s.started)
  | taken (w : Work) (hc0 : s.cur = none) (hw : s.works = w :: s'.works) (hc : s'.cur = some w) (hd : s'.t.data = s.t.data) (hl : s'.log = s.log)
      (hs : s'.status = s.status) (ht : s'.tuned = s.tuned) (hst : s'.started = s.started)
  | fired (i : Nat) (hon : On i s.t.stack) (hc0 : s.cur = none) (hr : (s.t.data i).running = true) (hw : s'.works = s.works) (hc : s'.cur = some (.monitor i (s.tuned i)))
      (hd : s'.t.data = Tmr.upd s.t.data i { s.t.data i with running := false }) (hl : s'.log = s.log) (hs : s'.status = s.status) (ht : s'.tuned = s.tuned) (hst : s'.started = s.started)
  | looked (i k : Nat) (up ok : Bool) (hc0 : s.cur = some (.monitor i k)) (hw : s'.works = s.works) (hc : s'.cur = some .over)
      (hd : s'.t.data = Tmr.upd s.t.data i { s.t.data i with deadline := s.t.now + next (decide (s.status i ≠ up)) k, duration := next (decide (s.status i ≠ up)) k, running := true })
      (hl : s'.log = s.log ++ [.checked i up ok (next (decide (s.status i ≠ up)) k)])
      (hs : s'.status = Tmr.upd s.status i (if up && !ok then s.status i else up)) (ht : s'.tuned = Tmr.upd s.tuned i (next (decide (s.status i ≠ up)) k)) (hst : s'.started = s.started)
  | done (w : Work) (e : Ev) (hm : (∃ i m, w = .message i m) ∨ ∃ i m, w = .server i m) (he : e = .handled w ∨ e = .dropped w) (hc0 : s.cur = some w) (hw : s'.works = s.works) (hc : s'.cur = some .over)
      (hd : s'.t.data = s.t.data) (hl : s'.log = s.log ++ [e]) (hs : s'.status = s.status) (ht : s'.tuned = s.tuned) (hst : s'.started = s.started)
  | ret (hc0 : s.cur = some .over) (hw : s'.works = s.works) (hc : s'.cur = none) (hd : s'.t.data = s.t.data) (hl : s'.log = s.log) (hs : s'.status = s.status) (ht : s'.tuned = s.tuned)
      (hst : s'.started = s.started)

theorem ite_some {α : Type} {c : Prop} [Decidable c] {a t : α} (h : (if c then some a else none) = some t) : c ∧ a = t := by
  split at h
  · next hc => exact ⟨hc, Option.some.inj h⟩
  · cases h

theorem J_init : J init := by constructor <;> simp [init, Tmr.init, Shape, Waits]

theorem J_push {s s' : State} (h : J s) (hc : s'.cur = s.cur) (ht : s'.t = Tmr.push s.t .user) : J s' := by
  obtain ⟨h1, h2, h3, h4⟩ := h
  constructor <;> rw [ht] <;> (try rw [hc]) <;> simp_all [Tmr.push]

theorem J_cur {s : State} (h : J s) (hne : ∀ fs, s.t.stack ≠ .user :: fs) : s.cur = none := by
  rcases h.shape with ⟨e, _⟩ | ⟨_, e | e | ⟨i, t, e⟩⟩
  · exact e
  all_goals exact absurd e (hne _)

theorem begin_same (t : Tmr.State) (fs : List Frame) (j : Job) : (Tmr.begin t fs j).data = t.data ∧ (Tmr.begin t fs j).closed = t.closed := by
  have hret : ∀ t : Tmr.State, (Tmr.ret t fs).data = t.data ∧ (Tmr.ret t fs).closed = t.closed := by
    intro t; unfold Tmr.ret; split <;> exact ⟨rfl, rfl⟩
  cases j with
  | user => exact ⟨rfl, rfl⟩
  | check =>
    unfold Tmr.begin
    dsimp only
    split
    · exact hret t
    · exact ⟨rfl, rfl⟩
  | wake => exact hret t

theorem J_taken {s s' : State} {j : Job} {js : List Job} {fs : List Frame} (h : J s) (hc : s.cur = none) (hfs : (s.t.stack = [] ∧ fs = []) ∨ ∃ i dl, s.t.stack = [.waiting i dl] ∧ fs = [.held i false])
    (hs : taken s j (Tmr.begin { s.t with jobs := js } fs j) = some s') : J s' ∧ Eff s s' := by
  have hb := begin_same { s.t with jobs := js } fs j
  have hw := h.st
  obtain ⟨h1, h2, h3, h4⟩ := h
  cases j with
  | user =>
    cases hwk : s.works with
    | nil => simp [taken, hwk] at hs
    | cons w ws =>
      simp only [taken, hwk, Option.some.injEq] at hs
      subst hs
      refine ⟨?_, .taken w hc hwk rfl hb.1 rfl rfl rfl rfl⟩
      rcases hfs with ⟨e, rfl⟩ | ⟨i, dl, e, rfl⟩ <;> rw [e] at hw <;> constructor <;> simp_all [Tmr.begin, Shape, Waits]
  | check =>
    simp only [taken, Option.some.injEq] at hs
    subst hs
    refine ⟨?_, .inner rfl rfl hb.1 rfl rfl rfl rfl⟩
    rcases hfs with ⟨e, rfl⟩ | ⟨i, dl, e, rfl⟩ <;> rw [e] at hw <;> constructor <;> simp_all [Tmr.begin, Tmr.ret, Shape, Waits]
  | wake =>
    simp only [taken, Option.some.injEq] at hs
    subst hs
    refine ⟨?_, .inner rfl rfl hb.1 rfl rfl rfl rfl⟩
    rcases hfs with ⟨e, rfl⟩ | ⟨i, dl, e, rfl⟩ <;> rw [e] at hw <;> constructor <;> simp_all [Tmr.begin, Tmr.ret, Shape, Waits]

/-- A step of the timer manager that leaves its data alone and calls no function. -/
theorem J_inner {s s' : State} (h : J s) (hc : s'.cur = s.cur) (hcl : s'.t.closed = s.t.closed) (hd : s'.t.data = s.t.data) (hsh : Shape s'.t.stack s'.cur)
    (hst : s'.t.st = .waiting ↔ Waits s'.t.stack) : J s' := ⟨by rw [hcl]; exact h.opened, by rw [hd]; exact h.once, hsh, hst⟩

theorem J_step {s s' : State} {a : Act} (h : J s) (hs : step s a = some s') : J s' ∧ Eff s s' := by
  have hub : ¬ s.ub = true := by
    intro e
    simp [step, e] at hs
  unfold step at hs
  rw [if_neg hub] at hs
  cases a with
  | start i =>
    dsimp only at hs
    split at hs
    · cases hs
    · next e =>
      cases hs
      exact ⟨J_push h rfl rfl, .start i (by simpa using e) rfl rfl (by simp [submit, Tmr.push, h.opened]) rfl rfl rfl rfl⟩
  | arrive w =>
    dsimp only at hs
    cases w with
    | message i m => cases hs; exact ⟨J_push h rfl rfl, .arrive (.message i m) (.inl ⟨_, _, rfl⟩) rfl rfl (by simp [submit, Tmr.push, h.opened]) rfl rfl rfl rfl⟩
    | server i m => cases hs; exact ⟨J_push h rfl rfl, .arrive (.server i m) (.inr ⟨_, _, rfl⟩) rfl rfl (by simp [submit, Tmr.push, h.opened]) rfl rfl rfl rfl⟩
    | monitor i k => cases hs
    | over => cases hs
  | stop i =>
    cases hs
    refine ⟨⟨h.opened, fun j => ?_, h.shape, h.st⟩, .foreign i _ (.inl rfl) rfl rfl rfl rfl rfl rfl rfl⟩
    by_cases e : j = i
    · subst e; simp only [foreignStop, Tmr.upd, if_true]; exact h.once j
    · simp only [foreignStop, Tmr.upd_other e]; exact h.once j
  | destroy i =>
    cases hs
    refine ⟨⟨h.opened, fun j => ?_, h.shape, h.st⟩, .foreign i _ (.inr rfl) rfl rfl rfl rfl rfl rfl rfl⟩
    by_cases e : j = i
    · subst e; simp only [foreignStop, Tmr.upd, if_true]; exact h.once j
    · simp only [foreignStop, Tmr.upd_other e]; exact h.once j
  | destroySrv i => cases hs; exact ⟨⟨h.opened, h.once, h.shape, h.st⟩, .inner rfl rfl rfl rfl rfl rfl rfl⟩
  | tick n =>
    obtain ⟨t, ht, rfl⟩ := Option.map_eq_some_iff.1 hs
    unfold Tmr.step at ht
    split at ht
    · cases ht
    · cases ht; exact ⟨⟨h.opened, h.once, h.shape, h.st⟩, .inner rfl rfl rfl rfl rfl rfl rfl⟩
  | take =>
    dsimp only at hs
    split at hs
    · cases hs
    · next hc =>
      have hc : s.cur = none := by cases e : s.cur <;> simp_all
      cases hj : s.t.jobs with
      | nil => rw [hj] at hs; cases hs
      | cons j js =>
        rw [hj] at hs
        obtain ⟨t, ht, hs⟩ := Option.bind_eq_some_iff.1 hs
        unfold Tmr.step at ht
        split at ht
        · cases ht
        · simp only [h.opened, Bool.false_eq_true, if_false, hj] at ht
          rcases h.shape with ⟨_, e | e | ⟨i, dl, e⟩ | ⟨i, t, e⟩⟩ | ⟨⟨w, e⟩, _⟩
          all_goals first | (rw [hc] at e; cases e; done) | (rw [e] at ht; cases ht)
          exact J_taken (js := js) h hc (.inl ⟨e, rfl⟩) (by simpa [h.opened, e] using hs)
  | waitJob =>
    dsimp only at hs
    cases hj : s.t.jobs with
    | nil => rw [hj] at hs; cases hs
    | cons j js =>
      rw [hj] at hs
      obtain ⟨t, ht, hs⟩ := Option.bind_eq_some_iff.1 hs
      unfold Tmr.step at ht
      split at ht
      · cases ht
      · simp only [h.opened, Bool.false_eq_true, if_false, hj] at ht
        rcases h.shape with ⟨hc, e | e | ⟨i, dl, e⟩ | ⟨i, t, e⟩⟩ | ⟨hc, e | e | ⟨i, t, e⟩⟩
        all_goals (rw [e] at ht; try cases ht)
        exact J_taken (js := js) h hc (.inr ⟨i, dl, e, rfl⟩) (by simpa [h.opened, e] using hs)
  | look =>
    obtain ⟨t, ht, rfl⟩ := Option.map_eq_some_iff.1 hs
    unfold Tmr.step at ht
    split at ht
    · cases ht
    · have hw := h.st
      rcases h.shape with ⟨hc, e | e | ⟨i, dl, e⟩ | ⟨i, t, e⟩⟩ | ⟨hc, e | e | ⟨i, t, e⟩⟩
      all_goals (rw [e] at ht hw; try (cases ht; done))
      cases hr : s.t.records with
      | nil =>
        simp only [hr, Tmr.ret] at ht
        cases ht
        exact ⟨J_inner h rfl rfl rfl (by simp [Shape, hc]) (by simp_all [Waits]), .inner rfl rfl rfl rfl rfl rfl rfl⟩
      | cons i r =>
        simp only [hr] at ht
        split at ht
        · cases ht
          exact ⟨J_inner h rfl rfl rfl (by simp [Shape, hc]) (by simp_all [Waits]), .inner rfl rfl rfl rfl rfl rfl rfl⟩
        · cases ht
          exact ⟨J_inner h rfl rfl rfl (by simp [Shape, hc]) (by simp_all [Waits]), .inner rfl rfl rfl rfl rfl rfl rfl⟩
  | waitOut =>
    obtain ⟨t, ht, rfl⟩ := Option.map_eq_some_iff.1 hs
    unfold Tmr.step at ht
    split at ht
    · cases ht
    · rcases h.shape with ⟨hc, e | e | ⟨i, dl, e⟩ | ⟨i, t, e⟩⟩ | ⟨hc, e | e | ⟨i, t, e⟩⟩
      all_goals (rw [e] at ht; try (cases ht; done))
      simp only at ht
      split at ht
      · cases ht
        exact ⟨J_inner h rfl rfl rfl (by simp [Shape, hc]) (by simp [Waits]), .inner rfl rfl rfl rfl rfl rfl rfl⟩
      · cases ht
  | fire r =>
    dsimp only at hs
    have hw := h.st
    rcases h.shape with ⟨hc, e | e | ⟨i, dl, e⟩ | ⟨i, t, e⟩⟩ | ⟨hc, e | e | ⟨i, t, e⟩⟩
    all_goals (rw [e] at hs hw; try (cases hs; done))
    obtain ⟨t', ht, rfl⟩ := Option.map_eq_some_iff.1 hs
    unfold Tmr.step at ht
    split at ht
    · cases ht
    · simp only [e, h.opened, Bool.false_eq_true, if_false] at ht
      split at ht
      · cases ht
        rw [if_neg (by simp)]
        exact ⟨J_inner h rfl h.opened.symm rfl (by simp [Shape, hc]) (by simp_all [Waits]), .inner rfl rfl rfl rfl rfl rfl rfl⟩
      · split at ht
        · cases ht
          rw [if_neg (by simp)]
          exact ⟨J_inner h rfl h.opened.symm rfl (by simp [Shape, hc]) (by simp [Waits]), .inner rfl rfl rfl rfl rfl rfl rfl⟩
        · next hrun =>
          have ho := h.once i
          cases hrec : s.t.records with
          | nil =>
            rw [hrec] at ht
            cases ht
            rw [if_neg (by simp [e])]
            exact ⟨J_inner h rfl h.opened.symm rfl (by simpa [e, hc] using h.shape) (by simpa [e] using hw), .inner rfl rfl rfl rfl rfl rfl rfl⟩
          | cons f rest =>
            rw [hrec] at ht
            simp only [ho, Bool.false_eq_true, if_false] at ht
            split at ht
            · cases ht
              rw [if_pos (by simp [noteEmpty_stack])]
              refine ⟨⟨?_, ?_, ?_, ?_⟩, .fired i (by rw [e]; simp [On]) hc (by simpa using hrun) rfl rfl ?_ rfl rfl rfl rfl⟩
              · rw [(noteEmpty_same _).2.2.2.2.2.1]
              · rw [(noteEmpty_same _).2.1]
                intro j
                by_cases ej : j = i
                · subst ej; simp [Tmr.upd]
                · show (Tmr.upd s.t.data i _ j).cyclic = false
                  rw [Tmr.upd_other ej]; exact h.once j
              · rw [noteEmpty_stack]; simp [Shape]
              · exact ⟨fun hh => absurd hh ((noteEmpty_same _).2.2.2.2.2.2.2.2 rfl), by rw [noteEmpty_stack]; simp [Waits]⟩
              · rw [(noteEmpty_same _).2.1]; simp [ho]
            · cases ht
  | work up ok r =>
    dsimp only at hs
    cases hc : s.cur with
    | none => simp [perform, hc] at hs
    | some w =>
      have hsh : s.t.stack = [.user] ∨ s.t.stack = [.user, .check] ∨ ∃ i t, s.t.stack = [.user, .held i t] := by
        rcases h.shape with ⟨e, _⟩ | ⟨_, e⟩
        · rw [hc] at e; cases e
        · exact e
      cases w with
      | monitor i k =>
        simp only [perform, hc] at hs
        split at hs
        · cases hs
          exact ⟨⟨h.opened, h.once, hc ▸ h.shape, h.st⟩, .inner rfl hc.symm rfl rfl rfl rfl rfl⟩
        · obtain ⟨t, ht, rfl⟩ := Option.map_eq_some_iff.1 hs
          have key : t.data = Tmr.upd s.t.data i { s.t.data i with deadline := s.t.now + next (decide (s.status i ≠ up)) k, duration := next (decide (s.status i ≠ up)) k, running := true } ∧
              t.closed = s.t.closed ∧ t.stack = s.t.stack.map Frame.touch ∧ t.st = s.t.st := by
            generalize next (decide (s.status i ≠ up)) k = N at ht
            have hop := h.opened
            unfold Tmr.step at ht
            split at ht
            · cases ht
            · have hh : Tmr.operate (Tmr.touch s.t) r (.start i N) = some t := by
                rcases hsh with e | e | ⟨i', t', e⟩ <;> rw [e] at ht <;> exact ht
              cases hrn : (s.t.data i).running
              · simp only [Tmr.operate, Tmr.touch, hrn, Bool.false_eq_true, if_false] at hh
                obtain ⟨_, rfl⟩ := ite_some hh
                simp [Tmr.push, hop]
              · simp only [Tmr.operate, Tmr.touch, hrn, if_true] at hh
                obtain ⟨_, rfl⟩ := ite_some hh
                simp [Tmr.push, hop]
          refine ⟨⟨by rw [key.2.1]; exact h.opened, ?_, ?_, ?_⟩, .looked i k up ok hc rfl rfl key.1 rfl rfl rfl rfl⟩
          · rw [key.1]
            intro j
            by_cases ej : j = i
            · subst ej; simp only [Tmr.upd, if_true]; exact h.once j
            · rw [Tmr.upd_other ej]; exact h.once j
          · rw [key.2.2.1]
            rcases touch_shape hsh with ⟨e, e'⟩ | ⟨e, e'⟩ | ⟨i', t, e, e'⟩ <;> rw [e'] <;> simp [Shape]
          · rw [key.2.2.1, key.2.2.2, h.st]
            rcases touch_shape hsh with ⟨e, e'⟩ | ⟨e, e'⟩ | ⟨i', t, e, e'⟩ <;> rw [e', e] <;> simp [Waits]
      | message i m =>
        simp only [perform, hc] at hs
        split at hs
        · cases hs
          exact ⟨⟨h.opened, h.once, hc ▸ h.shape, h.st⟩, .inner rfl hc.symm rfl rfl rfl rfl rfl⟩
        · cases hs
          exact ⟨⟨h.opened, h.once, .inr ⟨⟨_, rfl⟩, hsh⟩, h.st⟩, .done _ _ (.inl ⟨_, _, rfl⟩) (.inl rfl) hc rfl rfl rfl rfl rfl rfl rfl⟩
      | server i m =>
        simp only [perform, hc] at hs
        split at hs
        · cases hs
          exact ⟨⟨h.opened, h.once, .inr ⟨⟨_, rfl⟩, hsh⟩, h.st⟩, .done _ _ (.inr ⟨_, _, rfl⟩) (.inr rfl) hc rfl rfl rfl rfl rfl rfl rfl⟩
        · cases hs
          exact ⟨⟨h.opened, h.once, .inr ⟨⟨_, rfl⟩, hsh⟩, h.st⟩, .done _ _ (.inr ⟨_, _, rfl⟩) (.inl rfl) hc rfl rfl rfl rfl rfl rfl rfl⟩
      | over => simp [perform, hc] at hs
  | ret =>
    dsimp only at hs
    cases hc : s.cur with
    | none => simp [hc] at hs
    | some w =>
      cases w with
      | over =>
        simp only [hc] at hs
        obtain ⟨t, ht, rfl⟩ := Option.map_eq_some_iff.1 hs
        have hw := h.st
        have hsh : s.t.stack = [.user] ∨ s.t.stack = [.user, .check] ∨ ∃ i t, s.t.stack = [.user, .held i t] := by
          rcases h.shape with ⟨e, _⟩ | ⟨_, e⟩
          · rw [hc] at e; cases e
          · exact e
        unfold Tmr.step at ht
        split at ht
        · cases ht
        · rcases hsh with e | e | ⟨i', t', e⟩
          all_goals (rw [e] at ht hw; simp only [Tmr.ret, Option.some.injEq] at ht; subst ht)
          all_goals refine ⟨⟨h.opened, h.once, ?_, ?_⟩, .ret hc rfl rfl rfl rfl rfl rfl rfl⟩
          all_goals simp_all [Shape, Waits]
      | _ => simp [hc] at hs

end Mon
end Maf
