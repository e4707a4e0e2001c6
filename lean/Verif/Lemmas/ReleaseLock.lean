import Verif.Lemmas.Release
/-
The mutex of the queue: one owner, and what is above it on the owner's stack.
-/
namespace Maf.Drop

def holders (l : List Frame) : Nat := l.countP Frame.holds

@[simp] theorem holders_cons (f : Frame) (l : List Frame) : holders (f :: l) = holders l + (if f.holds then 1 else 0) := by
  simp [holders, List.countP_cons]

def LInv (s : State) : Prop := ∀ t, holders (s.stk t) = if s.lock = some t then 1 else 0

theorem LInv_init : LInv init := by intro t; simp [init, holders]

theorem stepFrame_linv {s s' : State} {t : Tid} {f : Frame} {rest : List Frame} (h : LInv s) (hs : s.stk t = f :: rest)
    (hr : stepFrame s t rest f = some s') : LInv s' := by
  have ht := h t
  rw [hs] at ht
  cases f <;> simp only [stepFrame] at hr <;> (repeat' split at hr) <;> simp only [Option.some.injEq, reduceCtorEq] at hr <;> subst hr <;>
    intro u <;> have hu := h u <;> simp only [go, upd] <;> (repeat' split) <;> simp_all [Frame.holds] <;> (try grind)

theorem step_linv {s s' : State} {a : Act} (h : LInv s) (hr : step s a = some s') : LInv s' := by
  cases a with
  | call t c =>
    simp only [step] at hr
    split at hr
    · cases hr
      cases c <;> simp only [callStep] <;> (repeat' split) <;> intro u <;> have hu := h u <;> have ht := h t <;> (try simp only [go, upd]) <;>
        (repeat' split) <;> simp_all [Frame.holds] <;> (try grind)
    · cases hr
  | step t =>
    simp only [step] at hr
    split at hr
    · cases hr
    · rename_i f rest hs; exact stepFrame_linv h hs hr
  | timeout t =>
    simp only [step] at hr
    split at hr
    · rename_i k p rest hs
      split at hr
      · cases hr
      · cases hr; intro u; have hu := h u; simp only [go, upd]; split <;> simp_all [Frame.holds]
    · cases hr

theorem run_linv {as : List Act} {s : State} (h : run init as = some s) : LInv s := run_ind (fun _ _ _ => step_linv) LInv_init h

theorem holders_pos {l : List Frame} {f : Frame} (h : f ∈ l) (hf : f.holds = true) : 0 < holders l := List.countP_pos_iff.2 ⟨f, h, hf⟩

/-- A frame that owns the mutex is on the owner's stack. -/
theorem LInv.owner {s : State} (h : LInv s) {t : Tid} {f : Frame} (hf : f ∈ s.stk t) (hh : f.holds = true) : s.lock = some t := by
  have := h t
  have := holders_pos hf hh
  grind

/-- Nothing goes on for good once a thread is stuck. -/
theorem stuck_step {s s' : State} {t : Tid} {a : Act} (hl : LInv s) (h : Stuck s t) (hr : step s a = some s') :
    Stuck s' t ∧ a.tid ≠ t ∧ s'.q = s.q ∧ (∀ u x, Ev.began u x ∈ s'.log → Ev.began u x ∈ s.log) ∧ ∀ x, Ev.entered x ∈ s'.log → Ev.entered x ∈ s.log := by
  obtain ⟨hk, f, rest, hs, hf⟩ := h
  have key : a.tid ≠ t ∧ s'.lock = some t ∧ s'.stk t = s.stk t ∧ s'.q = s.q ∧ (∀ u x, Ev.began u x ∈ s'.log → Ev.began u x ∈ s.log) ∧ ∀ x, Ev.entered x ∈ s'.log → Ev.entered x ∈ s.log := by
    cases a with
    | call u c =>
      simp only [step] at hr
      split at hr
      · rename_i hc
        cases hr
        have hut : u ≠ t := by
          rintro rfl
          simp only [canCall, hs] at hc
          cases f <;> simp_all [Frame.wants, Frame.isUser]
        cases c <;> simp only [callStep, Act.tid] <;> (repeat' split) <;> simp_all [go, upd, Ne.symm hut]
      · cases hr
    | step u =>
      simp only [step] at hr
      split at hr
      · cases hr
      · rename_i g rest' hs'
        have hut : u ≠ t := by
          rintro rfl
          rw [hs] at hs'
          cases hs'
          cases f <;> simp_all [Frame.wants, stepFrame]
        have hgh : g.holds = false := by
          cases hg : g.holds with
          | false => rfl
          | true =>
            have := hl.owner (t := u) (f := g) (by simp [hs']) hg
            rw [hk] at this
            cases this
            exact absurd rfl hut
        cases g <;> simp only [stepFrame, hk] at hr <;> (repeat' split at hr) <;> simp only [Option.some.injEq, reduceCtorEq] at hr <;> (try subst hr) <;>
          simp_all [go, upd, Ne.symm hut, Frame.holds, Act.tid]
    | timeout u =>
      simp only [step] at hr
      split at hr
      · split at hr
        · cases hr
        · rename_i h; simp [hk] at h
      · cases hr
  exact ⟨⟨key.2.1, f, rest, by rw [key.2.2.1]; exact hs, hf⟩, key.1, key.2.2.2.1, key.2.2.2.2.1, key.2.2.2.2.2⟩

/-- Polite executions: on the owner's stack, there is nothing but destructors above the frame that owns the mutex. -/
def PInv (s : State) : Prop := ∀ t, s.lock = some t → ∃ (ds : List Item) (f : Frame) (rest : List Frame), s.stk t = ds.map Frame.dtor ++ f :: rest ∧ f.holds = true

theorem step_pinv {s s' : State} {a : Act} (hl : LInv s) (h : PInv s) (hp : Polite s a) (hr : step s a = some s') : PInv s' := by
  cases a with
  | call u c =>
    simp only [step] at hr
    split at hr
    · cases hr
      intro t hk
      have hk0 : s.lock = some t := by cases c <;> simp only [callStep] at hk <;> (repeat' split at hk) <;> simpa [go] using hk
      obtain ⟨ds, f, rest, hs, hf⟩ := h t hk0
      by_cases hut : t = u
      · subst hut
        rcases hp hk0 with rfl | ⟨hc, rfl | rfl⟩
        · exact ⟨ds, f, rest, hs, hf⟩
        · refine ⟨s.next :: ds, f, rest, ?_, hf⟩
          simp [callStep, hc, go, hs]
        · simp only [callStep, hc, if_true]
          exact ⟨ds, f, rest, hs, hf⟩
      · refine ⟨ds, f, rest, ?_, hf⟩
        rw [← hs]
        cases c <;> simp only [callStep] <;> (repeat' split) <;> simp [go, upd, hut]
    · cases hr
  | step u =>
    simp only [step] at hr
    split at hr
    · cases hr
    · rename_i g rest' hs'
      intro t hk
      by_cases hut : t = u
      · subst hut
        by_cases hk0 : s.lock = some t
        · obtain ⟨ds, f, rest, hs, hf⟩ := h t hk0
          rw [hs'] at hs
          cases ds with
          | nil =>
            simp only [List.map_nil, List.nil_append, List.cons.injEq] at hs
            obtain ⟨rfl, rfl⟩ := hs
            cases g <;> simp only [Frame.holds, Bool.false_eq_true] at hf
            · simp only [stepFrame, Option.some.injEq] at hr; subst hr; simp at hk
            · simp only [stepFrame] at hr
              split at hr
              · rename_i xs x ys
                cases hr; exact ⟨[x], .clearing ys, rest', by simp [go], rfl⟩
              · cases hr; simp at hk
          | cons d ds =>
            simp only [List.map_cons, List.cons_append, List.cons.injEq] at hs
            obtain ⟨rfl, rfl⟩ := hs
            cases hr
            exact ⟨ds, f, rest, by simp [go], hf⟩
        · cases g <;> simp only [stepFrame] at hr <;> (repeat' split at hr) <;> simp only [Option.some.injEq, reduceCtorEq] at hr <;> subst hr <;>
            first
            | (exact absurd hk hk0)
            | (simp at hk; done)
            | (exact ⟨[], _, _, by simp only [go, upd_self, List.map_nil, List.nil_append]; rfl, rfl⟩)
            | (exact ⟨[_], _, _, by simp only [go, upd_self]; rfl, rfl⟩)
      · have hgk : s.lock = some t := by
          cases g <;> simp only [stepFrame] at hr <;> (repeat' split at hr) <;> simp only [Option.some.injEq, reduceCtorEq] at hr <;> subst hr <;>
            simp_all [go]
        obtain ⟨ds, f, rest, hs, hf⟩ := h t hgk
        refine ⟨ds, f, rest, ?_, hf⟩
        rw [← hs]
        cases g <;> simp only [stepFrame] at hr <;> (repeat' split at hr) <;> simp only [Option.some.injEq, reduceCtorEq] at hr <;> subst hr <;>
          simp [go, upd, hut]
  | timeout u =>
    simp only [step] at hr
    split at hr
    · rename_i k p rest hs
      split at hr
      · cases hr
      · rename_i hn
        cases hr
        intro t hk
        simp only [go] at hk
        simp [hk] at hn
    · cases hr

theorem polite_inv {s : State} (h : PoliteRun s) : Inv s ∧ LInv s ∧ PInv s := by
  induction h with
  | init => exact ⟨Inv_init, LInv_init, by intro t h; cases h⟩
  | step _ hp hr ih => exact ⟨step_inv ih.1 hr, step_linv ih.2.1 hr, step_pinv ih.2.1 ih.2.2 hp hr⟩

/-- The owner goes on. -/
theorem owner_steps {s : State} (h : PInv s) {t : Tid} (hk : s.lock = some t) : ∃ s', step s (.step t) = some s' := by
  obtain ⟨ds, f, rest, hs, hf⟩ := h t hk
  cases ds with
  | nil =>
    simp only [List.map_nil, List.nil_append] at hs
    cases f <;> simp only [Frame.holds, Bool.false_eq_true] at hf
    · exact ⟨_, by simp only [step, hs, stepFrame]; rfl⟩
    · rename_i xs
      cases xs <;> exact ⟨_, by simp only [step, hs, stepFrame]; rfl⟩
  | cons d ds => exact ⟨_, by simp only [step, hs, List.map_cons, List.cons_append, stepFrame]; rfl⟩

theorem unlocks {t : Tid} {f : Frame} {rest : List Frame} (ds : List Item) : ∀ {s : State}, s.lock = some t →
    s.stk t = ds.map Frame.dtor ++ f :: rest → f.holds = true → ∃ n s', run s (List.replicate n (.step t)) = some s' ∧ s'.lock = none := by
  have more : ∀ {s s1 : State}, step s (.step t) = some s1 → (∃ n s', run s1 (List.replicate n (.step t)) = some s' ∧ s'.lock = none) →
      ∃ n s', run s (List.replicate n (.step t)) = some s' ∧ s'.lock = none := by
    rintro s s1 h1 ⟨n, s', h2, h3⟩
    exact ⟨n + 1, s', by simp only [List.replicate_succ, run, h1, Option.bind_some]; exact h2, h3⟩
  induction ds with
  | nil =>
    intro s hk hs hf
    simp only [List.map_nil, List.nil_append] at hs
    cases f <;> simp only [Frame.holds, Bool.false_eq_true] at hf
    · exact more (by simp only [step, hs, stepFrame]; rfl) ⟨0, _, rfl, rfl⟩
    · rename_i xs
      induction xs generalizing s with
      | nil => exact more (by simp only [step, hs, stepFrame]; rfl) ⟨0, _, rfl, rfl⟩
      | cons x xs ih =>
        refine more (by simp only [step, hs, stepFrame]; rfl) ?_
        refine more (s1 := go (go s t (.dtor x :: .clearing xs :: rest) [.dropped t x]) t (.clearing xs :: rest) []) (by simp [step, go, stepFrame]) ?_
        exact ih (by simpa [go] using hk) (by simp [go])
  | cons d ds ih =>
    intro s hk hs hf
    simp only [List.map_cons, List.cons_append] at hs
    exact more (s1 := go s t (ds.map Frame.dtor ++ f :: rest) []) (by simp only [step, hs, stepFrame]) (ih (by simpa [go] using hk) (by simp [go]) hf)

/-- A destructor runs because something was destroyed. -/
theorem run_dtor {as : List Act} {s : State} (h : run init as = some s) : ∀ u x, Frame.dtor x ∈ s.stk u → Ev.dropped u x ∈ s.log := by
  refine run_ind (P := fun s => ∀ u x, Frame.dtor x ∈ s.stk u → Ev.dropped u x ∈ s.log) ?_ (by simp [init]) h
  intro s a s' hi hr
  cases a with
  | call t c =>
    simp only [step] at hr
    split at hr
    · cases hr
      intro u x hx
      have ht := hi t x
      have hu := hi u x
      by_cases hut : u = t
      · subst hut
        cases c <;> simp only [callStep] at hx ⊢ <;> (repeat' split at hx) <;> simp_all [go]
        rcases hx with rfl | hx <;> simp_all
      · cases c <;> simp only [callStep] at hx ⊢ <;> (repeat' split at hx) <;> simp_all [go, upd]
    · cases hr
  | step t =>
    simp only [step] at hr
    split at hr
    · cases hr
    · rename_i f rest hs
      intro u x hx
      have hu := hi u x
      by_cases hut : u = t
      · subst hut
        rw [hs] at hu
        cases f <;> simp only [stepFrame] at hr <;> (repeat' split at hr) <;> simp only [Option.some.injEq, reduceCtorEq] at hr <;> (try subst hr) <;>
          simp only [go, upd_self, List.mem_cons, List.mem_append] at hx hu ⊢ <;> grind
      · cases f <;> simp only [stepFrame] at hr <;> (repeat' split at hr) <;> simp only [Option.some.injEq, reduceCtorEq] at hr <;> (try subst hr) <;>
          simp_all [go, upd]
  | timeout t =>
    simp only [step] at hr
    split at hr
    · rename_i k p rest hs
      split at hr
      · cases hr
      · cases hr
        intro u x hx
        have hu := hi u x
        by_cases hut : u = t
        · subst hut; simp_all [go]
        · simp_all [go, upd]
    · cases hr

/-- User code right above a frame that has locked the mutex is a destructor. -/
theorem dtor_above {rest : List Frame} (hw : WF rest) {g : Frame} (hg : g ∈ rest) (hh : g.holds = true)
    (hu : ∀ f r, rest = f :: r → f.isUser = true ∨ ∃ k x, f = .after k x) : ∃ x, Frame.dtor x ∈ rest := by
  induction rest with
  | nil => cases hg
  | cons f r ih =>
    have hf := hu f r rfl
    rcases List.mem_cons.1 hg with rfl | hg1
    · cases g <;> simp_all [Frame.holds, Frame.isUser]
    · have more : (∀ g r', r = g :: r' → g.isUser = true ∨ ∃ k x, g = .after k x) → ∃ x, Frame.dtor x ∈ f :: r := by
        intro h
        obtain ⟨y, hy⟩ := ih hw.2 hg1 h
        exact ⟨y, by simp [hy]⟩
      cases f with
      | dtor x => exact ⟨x, by simp⟩
      | code x =>
        obtain ⟨k, r', e⟩ := hw.1
        exact more (by intro g r'' e'; rw [e] at e'; cases e'; exact .inr ⟨k, x, rfl⟩)
      | after k x => exact more (fun g r' e => .inl (hw.1 g r' e))
      | _ => simp [Frame.isUser] at hf

end Maf.Drop
