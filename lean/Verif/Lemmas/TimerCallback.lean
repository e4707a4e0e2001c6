import Verif.Model.TimerCallback
import Verif.Lemmas.Timer
import Verif.Lemmas.Hist
namespace Maf.Tcb
open Maf.Tmr (Tm Frame upd upd_same upd_other)

/-! ### What steps of the timers do -/

theorem op_records {s s' : Tmr.State} {o : Tmr.Op} {r : List Tm} (hs : Tmr.operate s r o = some s') {i : Tm} (hi : i ∈ s'.records) :
    i ∈ s.records ∨ ∃ d, o = .start i d := by
  cases o with
  | start j d =>
    simp only [Tmr.operate] at hs
    split at hs
    · split at hs
      · next ho => cases hs; simp at hi; exact .inl (ho.1.mem_iff.1 hi)
      · cases hs
    · split at hs
      · next ho =>
        cases hs; simp at hi
        rcases List.mem_append.1 (ho.1.mem_iff.1 hi) with h | h
        · exact .inl h
        · obtain rfl := List.mem_singleton.1 h
          exact .inr ⟨_, rfl⟩
      · cases hs
  | stop j =>
    left
    simp only [Tmr.operate] at hs
    split at hs
    · cases hs; exact hi
    · split at hs
      · cases hs; exact hi
      · next f rest hr =>
        split at hs
        · split at hs
          · next ho =>
            cases hs
            have : i ∈ r := by split at hi <;> simpa using hi
            rw [hr]
            exact List.mem_cons_of_mem _ (ho.1.mem_iff.1 this)
          · cases hs
        · split at hs
          · cases hs; exact hi
          · split at hs
            · split at hs
              · next ho => cases hs; rw [hr]; exact List.mem_of_mem_erase (ho.1.mem_iff.1 hi)
              · cases hs
            · cases hs; exact hi
  | restart j =>
    left
    simp only [Tmr.operate] at hs
    split at hs
    · cases hs; exact hi
    · split at hs
      all_goals
        split at hs
        · next ho => cases hs; simp at hi; exact ho.1.mem_iff.1 hi
        · cases hs
  | setCyclic j b => simp only [Tmr.operate] at hs; cases hs; exact .inl hi

theorem op_running {s s' : Tmr.State} {o : Tmr.Op} {r : List Tm} (hs : Tmr.operate s r o = some s') {i : Tm} (hi : (s'.data i).running = true) :
    (s.data i).running = true ∨ target (.op o r) = some i := by
  have upd_run : ∀ {j : Tm} {d : Tmr.Data}, ((upd s.data j d) i).running = true → (s.data i).running = true ∨ (i = j ∧ d.running = true) := by
    intro j d h
    by_cases e : i = j
    · subst e; rw [upd_same] at h; exact .inr ⟨rfl, h⟩
    · rw [upd_other e] at h; exact .inl h
  cases o with
  | start j d =>
    simp only [Tmr.operate] at hs
    repeat' split at hs
    all_goals (first | (cases hs; done) | cases hs)
    all_goals (simp at hi; rcases upd_run hi with h | ⟨rfl, -⟩; exact .inl h; exact .inr rfl)
  | stop j =>
    left
    simp only [Tmr.operate] at hs
    split at hs
    · cases hs; exact hi
    · split at hs
      · cases hs; rcases upd_run hi with h | ⟨-, h⟩; exact h; cases h
      · split at hs
        · split at hs
          · cases hs
            have hi : ((upd s.data j { s.data j with running := false }) i).running = true := by split at hi <;> simpa using hi
            rcases upd_run hi with h | ⟨-, h⟩; exact h; cases h
          · cases hs
        · split at hs
          · cases hs; rcases upd_run hi with h | ⟨-, h⟩; exact h; cases h
          · split at hs
            · split at hs
              · cases hs; rcases upd_run hi with h | ⟨-, h⟩; exact h; cases h
              · cases hs
            · cases hs; rcases upd_run hi with h | ⟨-, h⟩; exact h; cases h
  | restart j =>
    simp only [Tmr.operate] at hs
    split at hs
    · cases hs; rcases upd_run hi with h | ⟨rfl, -⟩; exact .inl h; exact .inr rfl
    · split at hs
      all_goals
        split at hs
        · cases hs; simp at hi; rcases upd_run hi with h | ⟨rfl, -⟩; exact .inl h; exact .inr rfl
        · cases hs
  | setCyclic j b =>
    simp only [Tmr.operate] at hs
    cases hs
    rcases upd_run hi with h | ⟨rfl, h⟩ <;> exact .inl h

theorem records_step {s s' : Tmr.State} {a : Tmr.Act} (hs : Tmr.step s a = some s') {i : Tm} (hi : i ∈ s'.records) :
    i ∈ s.records ∨ ∃ d r, a = .op (.start i d) r := by
  cases a with
  | op o r =>
    simp only [Tmr.step] at hs
    split at hs
    · cases hs
    · split at hs
      · rcases op_records hs hi with h | ⟨d, rfl⟩
        · exact .inl h
        · exact .inr ⟨d, r, rfl⟩
      · cases hs
  | fire r =>
    left
    cases Tmr.step_effect hs with
    | quiet hd hr hh hl => rwa [hr] at hi
    | cyc j b hd hr hh hl => rwa [hr] at hi
    | picked j rest h hd hr hh hl => rwa [hr] at hi
    | stopProc hd hr hh hl => rwa [hr] at hi
    | startRunning j d h hd hr hh hl => exact hr.1.mem_iff.1 hi
    | startNew j d h hd hh hr hl =>
      simp only [Tmr.step] at hs
      repeat' split at hs
      all_goals (first | (cases hs; done) | cases hs)
      all_goals simp at hl
    | stopIdle j h hd hr hh hl => rwa [hr] at hi
    | stopFront j rest h hd hf hh hr hl => rw [hf]; exact List.mem_cons_of_mem _ (hr.1.mem_iff.1 hi)
    | stopOther j h hd hf hh hr hl => exact List.mem_of_mem_erase (hr.1.mem_iff.1 hi)
    | stopLost j h hd hf hh hr hl => rwa [hr] at hi
    | restart j hd hn hh hr hl => exact hr.1.mem_iff.1 hi
    | restartUB j hd hn hh hr hl hub => rwa [hr] at hi
    | fireUB j h hn hd hr hh hl hub => rwa [hr] at hi
    | fire j f rest touched fs h hst hdl hf hl hh hc =>
      rw [hf]
      rcases hc with ⟨-, -, ho⟩ | ⟨-, -, ho⟩
      · exact ho.1.mem_iff.1 hi
      · exact List.mem_cons_of_mem _ (ho.1.mem_iff.1 hi)
  | _ =>
    left
    simp only [Tmr.step] at hs
    repeat' split at hs
    all_goals (first | (cases hs; done) | cases hs)
    all_goals (first | exact hi | simpa using hi)

theorem about_touch (f : Frame) : about f.touch = about f := by cases f <;> rfl

theorem ret_about {s : Tmr.State} {fs : List Frame} {f : Frame} {i : Tm} (hf : f ∈ (Tmr.ret s fs).stack) (hi : about f = some i) : ∃ g ∈ fs, about g = some i := by
  rcases Tmr.ret_stack s fs with e | ⟨j, t, gs, rfl, e⟩ <;> rw [e] at hf
  · exact ⟨f, hf, hi⟩
  · rcases List.mem_cons.1 hf with rfl | hf
    · exact ⟨.held j t, by simp, hi⟩
    · exact ⟨f, by simp [hf], hi⟩

theorem begin_about {s : Tmr.State} {fs : List Frame} {j : Tmr.Job} {f : Frame} {i : Tm} (hf : f ∈ (Tmr.begin s fs j).stack) (hi : about f = some i) : ∃ g ∈ fs, about g = some i := by
  rcases Tmr.begin_stack s fs j with e | e | e <;> rw [e] at hf
  · rcases List.mem_cons.1 hf with rfl | hf
    · cases hi
    · exact ⟨f, hf, hi⟩
  · rcases List.mem_cons.1 hf with rfl | hf
    · cases hi
    · exact ⟨f, hf, hi⟩
  · exact ret_about hf hi

theorem frames_step {s s' : Tmr.State} {a : Tmr.Act} (hs : Tmr.step s a = some s') {f : Frame} {i : Tm} (hf : f ∈ s'.stack) (hi : about f = some i) :
    (∃ g ∈ s.stack, about g = some i) ∨ i ∈ s.records := by
  cases a with
  | op o r =>
    left
    simp only [Tmr.step] at hs
    split at hs
    · cases hs
    · split at hs
      · rw [Tmr.op_stack hs] at hf
        simp only [Tmr.touch] at hf
        obtain ⟨g, hg, rfl⟩ := List.mem_map.1 hf
        exact ⟨g, hg, by rw [← hi, about_touch]⟩
      · cases hs
  | take =>
    left
    simp only [Tmr.step] at hs
    repeat' split at hs
    all_goals (first | (cases hs; done) | cases hs)
    · obtain ⟨g, hg, h⟩ := begin_about hf hi
      cases hg
    · obtain ⟨g, hg, h⟩ := begin_about hf hi
      exact ⟨g, by simp_all, h⟩
  | ret =>
    left
    simp only [Tmr.step] at hs
    repeat' split at hs
    all_goals (first | (cases hs; done) | cases hs)
    obtain ⟨g, hg, h⟩ := ret_about hf hi
    exact ⟨g, by simp_all, h⟩
  | look =>
    simp only [Tmr.step] at hs
    repeat' split at hs
    all_goals (first | (cases hs; done) | cases hs)
    · obtain ⟨g, hg, h⟩ := ret_about hf hi
      exact .inl ⟨g, by simp_all, h⟩
    · rcases List.mem_cons.1 hf with rfl | hf
      · right; cases hi; simp_all
      · exact .inl ⟨f, by simp_all, hi⟩
    · rcases List.mem_cons.1 hf with rfl | hf
      · right; cases hi; simp_all
      · exact .inl ⟨f, by simp_all, hi⟩
  | waitJob =>
    left
    simp only [Tmr.step] at hs
    repeat' split at hs
    all_goals (first | (cases hs; done) | cases hs)
    obtain ⟨g, hg, h⟩ := begin_about hf hi
    rename_i j dl fs hst _ _ _ _ _
    rcases List.mem_cons.1 hg with rfl | hg
    · exact ⟨.waiting _ _, by rw [hst]; exact List.mem_cons_self, h⟩
    · exact ⟨g, by rw [hst]; exact List.mem_cons_of_mem _ hg, h⟩
  | waitOut =>
    left
    simp only [Tmr.step] at hs
    repeat' split at hs
    all_goals (first | (cases hs; done) | cases hs)
    next j dl fs hst _ =>
    rcases List.mem_cons.1 hf with rfl | hf
    · exact ⟨.waiting j dl, by simp [hst], hi⟩
    · exact ⟨f, by simp [hst, hf], hi⟩
  | fire r =>
    left
    simp only [Tmr.step] at hs
    split at hs
    · cases hs
    · split at hs
      · next j t fs hst =>
        have deep : f ∈ fs.map Frame.touch → ∃ g ∈ s.stack, about g = some i := fun hf => by
          obtain ⟨g, hg, rfl⟩ := List.mem_map.1 hf
          exact ⟨g, by simp [hst, hg], by rw [← hi, about_touch]⟩
        split at hs
        · cases hs
          obtain ⟨g, hg, h⟩ := ret_about hf hi
          exact ⟨g, by simp [hst, hg], h⟩
        · split at hs
          · cases hs
            rcases List.mem_cons.1 hf with rfl | hf
            · cases hi
            · exact ⟨f, by simp [hst, hf], hi⟩
          · split at hs
            · cases hs
              rcases List.mem_cons.1 hf with rfl | hf
              · cases hi
              · exact ⟨f, by simp [hst, hf], hi⟩
            · split at hs
              · cases hs; exact ⟨f, hf, hi⟩
              · split at hs
                · split at hs
                  · cases hs
                    rcases List.mem_cons.1 hf with rfl | hf
                    · cases hi
                    rcases List.mem_cons.1 hf with rfl | hf
                    · cases hi
                    exact deep hf
                  · cases hs
                · split at hs
                  · cases hs
                    rw [Tmr.noteEmpty_stack] at hf
                    rcases List.mem_cons.1 hf with rfl | hf
                    · cases hi
                    rcases List.mem_cons.1 hf with rfl | hf
                    · cases hi
                    exact deep hf
                  · cases hs
      · cases hs
  | _ =>
    left
    simp only [Tmr.step] at hs
    repeat' split at hs
    all_goals (first | (cases hs; done) | cases hs)
    all_goals (first | exact ⟨f, hf, hi⟩ | exact ⟨f, by simpa using hf, hi⟩)

/-- A timer that runs ran before, or is started. -/
theorem running_step {s s' : Tmr.State} {a : Tmr.Act} (hs : Tmr.step s a = some s') {i : Tm} (hi : (s'.data i).running = true) :
    (s.data i).running = true ∨ target a = some i := by
  have upd_run : ∀ {j : Tm} {d : Tmr.Data}, ((upd s.data j d) i).running = true → (s.data i).running = true ∨ (i = j ∧ d.running = true) := by
    intro j d h
    by_cases e : i = j
    · subst e; rw [upd_same] at h; exact .inr ⟨rfl, h⟩
    · rw [upd_other e] at h; exact .inl h
  cases a with
  | op o r =>
    simp only [Tmr.step] at hs
    split at hs
    · cases hs
    · split at hs
      · exact op_running hs hi
      · cases hs
  | fire r =>
    left
    simp only [Tmr.step] at hs
    repeat' split at hs
    all_goals (first | (cases hs; done) | cases hs)
    all_goals (try (simp at hi; exact hi))
    all_goals (try rw [Tmr.noteEmpty_data] at hi)
    all_goals
      rcases upd_run hi with h | ⟨rfl, h⟩
      · exact h
      · first | exact h | cases h
  | _ =>
    left
    simp only [Tmr.step] at hs
    repeat' split at hs
    all_goals (first | (cases hs; done) | cases hs)
    all_goals (first | exact hi | simpa using hi)

/-- A timer whose callback is called was running, and is what the loop has waited for. -/
theorem fired_step {s s' : Tmr.State} {r : List Tm} (hs : Tmr.step s (.fire r) = some s') {i : Tm} (hi : firedIn s.log s'.log = some i) :
    (s.data i).running = true ∧ ∃ f ∈ s.stack, about f = some i := by
  have none_of : ∀ {l : List Tmr.Ev}, firedIn l l = none := by intro l; simp [firedIn]
  simp only [Tmr.step] at hs
  split at hs
  · cases hs
  · split at hs
    · next j t fs hst =>
      split at hs
      · cases hs; rw [Tmr.ret_log, none_of] at hi; cases hi
      · split at hs
        · cases hs; simp [none_of] at hi
        · split at hs
          · cases hs; simp [none_of] at hi
          · next hr =>
            have hr : (s.data j).running = true := by simpa using hr
            have key : ∀ {l : List Tmr.Ev} {x y : Nat} {b : Bool}, l = s.log ++ ((if t then [Tmr.Ev.overran j] else []) ++ [.fired j x y b]) → firedIn s.log l = some i → j = i := by
              intro l x y b e h
              subst e
              simp only [firedIn, List.drop_left] at h
              simpa using h
            split at hs
            · cases hs; simp [none_of] at hi
            · split at hs
              · split at hs
                · cases hs
                  obtain rfl := key rfl hi
                  exact ⟨hr, .waited j t, by rw [hst]; exact List.mem_cons_self, rfl⟩
                · cases hs
              · split at hs
                · cases hs
                  rw [Tmr.noteEmpty_log] at hi
                  obtain rfl := key rfl hi
                  exact ⟨hr, .waited j t, by rw [hst]; exact List.mem_cons_self, rfl⟩
                · cases hs
    · cases hs

end Maf.Tcb
