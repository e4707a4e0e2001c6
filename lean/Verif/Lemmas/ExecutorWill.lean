import Verif.Lemmas.ExecutorHist

namespace Maf.Exe

variable {c : Conf}

/-- The steps, by what they do to the `will...` functions. -/
inductive WCase (s s' : St) : Prop
  | call {i w es} (hw : s.wills[i]? = some w) (hs : s'.wills = s.wills.set i (empty w))
      (hlog : s'.log = s.log ++ (.called s.next i :: askEv s.next w.kind w.proc w.exec :: es))
      (hes : ∀ e ∈ es, (∀ n i, e ≠ .called n i) ∧ ∀ n k p f, e ≠ .asked n k p f)
  | other {x es} (hs : s'.wills = s.wills ++ x) (hlog : s'.log = s.log ++ es)
      (h1 : ∀ n i, Ev.called n i ∈ es → i < s.wills.length ∧ n = s.next ∧ ∀ n k p f, Ev.asked n k p f ∉ es)
      (h2 : ∀ n k p f, Ev.asked n k p f ∈ es → n = s.next)

theorem wcase_execute {s : St} (k : Kind) (p : Nat) (on : Option Nat) (f : Nat) : WCase s (execute c s k p on f) := by
  have fin : ∀ {s' : St} {es : List Ev}, s'.wills = s.wills → s'.log = s.log ++ (.asked s.next k p f :: es) →
      (∀ e ∈ es, (∀ n i, e ≠ .called n i) ∧ ∀ n k p f, e ≠ .asked n k p f) → WCase s s' := by
    intro s' es hw hl hes
    refine .other (x := []) (by simp [hw]) hl ?_ ?_
    · intro n i hm
      rcases List.mem_cons.1 hm with h | h
      · cases h
      · exact absurd rfl ((hes _ h).1 n i)
    · intro n k' p' f' hm
      rcases List.mem_cons.1 hm with h | h
      · simp only [Ev.asked.injEq] at h; exact h.1
      · exact absurd rfl ((hes _ h).2 _ _ _ _)
  unfold execute
  cases ha : s.alive p with
  | false => exact fin (es := [.returned s.next .no]) rfl (by simp [St.tick, St.ret, St.note]) (by simp)
  | true =>
    rw [if_pos rfl]
    unfold handOver
    rw [outcome_closed (s := s) (s' := s.note _) rfl]
    rcases outcome_cases c s k p on (some f) with ⟨ho, hc⟩ | ⟨ho, hc⟩ | ⟨ho, hc, hon, hk, -⟩ | ⟨ho, hc, hon, hk, hb⟩
    · rw [ho]; exact fin (es := [.returned s.next (if k = .wait then .no else .yes)]) rfl (by simp [finishExec, St.tick, St.ret, St.note]) (by simp)
    · rw [ho]
      by_cases hk : k = .wait
      · exact fin (es := []) (by simp [finishExec, hk, St.tick, St.note, St.push, St.await]) (by simp [finishExec, hk, St.tick, St.note, St.push, St.await]) (by simp)
      · exact fin (es := [.returned s.next .yes]) (by simp [finishExec, hk, St.tick, St.note, St.push, St.ret]) (by simp [finishExec, hk, St.tick, St.note, St.push, St.ret]) (by simp)
    · rw [ho]; exact fin (es := [.ran s.next f on, .returned s.next .yes]) rfl (by simp [finishExec, St.tick, St.ret, St.note, ranEv]) (by simp)
    · rw [ho]; exact fin (es := [.ran s.next f on, .terminated]) rfl (by simp [finishExec, St.tick, St.kill, St.note, ranEv]) (by simp)

theorem wcase_call {s : St} {i : Nat} {w : Will} (hw : s.wills[i]? = some w) (on : Option Nat) : WCase s (callWill c s i w on) := by
  have hi : i < s.wills.length := by
    rcases Nat.lt_or_ge i s.wills.length with h | h
    · exact h
    · rw [List.getElem?_eq_none h] at hw; cases hw
  have nr : ∀ {r : Ret}, ∀ e ∈ [Ev.returned s.next r], (∀ n i, e ≠ .called n i) ∧ ∀ n k p f, e ≠ .asked n k p f := by simp
  have rr : ∀ {r : Ret}, ∀ e ∈ ranEv s.next on w.exec ++ [Ev.returned s.next r], (∀ n i, e ≠ .called n i) ∧ ∀ n k p f, e ≠ .asked n k p f := by
    intro r e he
    rcases List.mem_append.1 he with he | he
    · obtain ⟨f, -, rfl⟩ := mem_ranEv.1 he; simp
    · simp at he; subst he; simp
  unfold callWill
  cases ha : s.alive w.proc with
  | false =>
    refine .other (x := []) (es := [.called s.next i, .returned s.next .done]) (by simp [St.tick, St.ret, St.note]) (by simp [St.tick, St.ret, St.note]) ?_ (by simp)
    intro n j hm; simp at hm; exact ⟨by rw [hm.2]; exact hi, hm.1, by simp⟩
  | true =>
    rw [if_pos rfl]
    unfold handOver
    rw [outcome_closed (s := s) (s' := { s.note _ with wills := s.wills.set i (empty w) }) rfl]
    rcases outcome_cases c s w.kind w.proc on w.exec with ⟨ho, hc⟩ | ⟨ho, hc⟩ | ⟨ho, hc, hon, hk, -⟩ | ⟨ho, hc, hon, hk, hb⟩
    · rw [ho]
      exact .call hw rfl (es := [.returned s.next (if w.kind = .wait then .threw else .done)]) (by simp [finishWill, St.tick, St.ret, St.note]) nr
    · rw [ho]
      by_cases hk : w.kind = .wait
      · exact .call hw (es := []) (by simp [finishWill, hk, St.tick, St.note, St.push, St.await]) (by simp [finishWill, hk, St.tick, St.note, St.push, St.await]) (by simp)
      · exact .call hw (es := [.returned s.next .done]) (by simp [finishWill, hk, St.tick, St.note, St.push, St.ret]) (by simp [finishWill, hk, St.tick, St.note, St.push, St.ret]) nr
    · rw [ho]; exact .call hw rfl (es := ranEv s.next on w.exec ++ [.returned s.next .done]) (by simp [finishWill, St.tick, St.ret, St.note]) rr
    · rw [ho]; exact .call hw rfl (es := ranEv s.next on w.exec ++ [.returned s.next .threw]) (by simp [finishWill, St.tick, St.ret, St.note]) rr

theorem step_wcase {s s' : St} {a : Act} (h : step c s a = some s') : WCase s s' := by
  replace h := (step_live h).1
  have none : ∀ {x} {es : List Ev}, s'.wills = s.wills ++ x → s'.log = s.log ++ es → (∀ e ∈ es, (∀ n i, e ≠ .called n i) ∧ ∀ n k p f, e ≠ .asked n k p f) → WCase s s' := by
    intro x es h1 h2 h3
    exact .other h1 h2 (fun n i hm => absurd rfl ((h3 _ hm).1 n i)) (fun n k p f hm => absurd rfl ((h3 _ hm).2 n k p f))
  cases a with
  | exec k p on f => cases h; exact wcase_execute k p on f
  | direct on f =>
    cases h
    exact none (x := []) (by simp [executeDirect, St.tick, St.note]) (es := [.direct s.next f, .ran s.next f on, .returned s.next (if c.throws f then .no else .yes)]) rfl (by simp)
  | will k p f => cases h; exact none (x := [⟨k, p, some f⟩]) (es := []) rfl (by simp) (by simp)
  | copy i =>
    obtain ⟨w, -, e⟩ := Option.map_eq_some_iff.1 h
    subst e; exact none (x := [w]) (es := []) rfl (by simp) (by simp)
  | call i on =>
    obtain ⟨w, hw, e⟩ := Option.map_eq_some_iff.1 h
    subst e; exact wcase_call hw on
  | run p =>
    simp only [live] at h
    cases hc : s.closed p with
    | true => simp [hc] at h
    | false =>
      simp only [hc, Bool.false_eq_true, if_false] at h
      cases hq : s.queue p with
      | nil => rw [hq] at h; cases h
      | cons t rest =>
        rw [hq] at h; cases h
        refine none (x := []) (by simp [runTask, St.note]) rfl ?_
        intro e he
        rcases List.mem_append.1 he with he | he
        · obtain ⟨f, -, rfl⟩ := mem_ranEv.1 he; simp
        · cases hb : (bad c t.fn && !t.guarded) <;> simp [hb] at he; subst he; simp
  | resume n =>
    obtain ⟨⟨m, p, r⟩, hw, h2⟩ := Option.bind_eq_some_iff.1 h
    unfold doResume at h2
    cases hany : (s.queue p).any (fun t => t.call == m) with
    | true => simp only [hany, if_true] at h2; cases h2
    | false =>
      simp only [hany, Bool.false_eq_true, if_false, Option.some.injEq] at h2
      subst h2
      exact none (x := []) (by simp [St.ret, St.note]) (es := [.returned m r]) rfl (by simp)
  | stop p =>
    cases h
    unfold doStop
    cases hc : s.closed p with
    | true => exact .other (x := []) (es := []) (by simp) (by simp) (by simp) (by simp)
    | false => exact .other (x := []) (es := [.stopped p]) (by simp [St.note]) rfl (by simp) (by simp)
  | reuse p => cases h; exact none (x := []) (by simp [St.note]) (es := [.reused p]) rfl (by simp)
  | gone p =>
    simp only [live] at h
    cases hw : s.waits.any fun w => w.2.1 == p with
    | true => simp [hw] at h
    | false => rw [hw] at h; cases h; exact none (x := []) (by simp [St.note]) (es := [.gone p]) rfl (by simp)

/-- A `will...` function that handed over what it has is empty. -/
structure Spent (s : St) : Prop where
  bound : ∀ n i, Ev.called n i ∈ s.log → i < s.wills.length
  spent : ∀ n i k p f, Ev.called n i ∈ s.log → Ev.asked n k p f ∈ s.log → ∃ w, s.wills[i]? = some w ∧ w.exec = none
  once : ∀ n m i k p f k' p' f', Ev.called n i ∈ s.log → Ev.asked n k p f ∈ s.log → Ev.called m i ∈ s.log → Ev.asked m k' p' f' ∈ s.log → n = m


theorem spent_step {s s' : St} (hI : Inv c s) (hS : Spent s) (h : WCase s s') : Spent s' := by
  cases h with
  | @call i w es hw hs hlog hes =>
    have hi : i < s.wills.length := by
      rcases Nat.lt_or_ge i s.wills.length with h | h
      · exact h
      · rw [List.getElem?_eq_none h] at hw; cases hw
    have hcalled : ∀ n j, Ev.called n j ∈ s'.log → Ev.called n j ∈ s.log ∨ (n = s.next ∧ j = i) := by
      intro n j hm
      rw [hlog] at hm
      simp only [List.mem_append, List.mem_cons] at hm
      rcases hm with hm | hm | hm | hm
      · exact .inl hm
      · simp only [Ev.called.injEq] at hm; exact .inr hm
      · cases he : w.exec <;> rw [he] at hm <;> cases hm
      · exact absurd rfl ((hes _ hm).1 n j)
    have hasked : ∀ n k p f, Ev.asked n k p f ∈ s'.log → Ev.asked n k p f ∈ s.log ∨ (n = s.next ∧ w.exec = some f) := by
      intro n k p f hm
      rw [hlog] at hm
      simp only [List.mem_append, List.mem_cons] at hm
      rcases hm with hm | hm | hm | hm
      · exact .inl hm
      · cases hm
      · cases he : w.exec with
        | none => rw [he] at hm; cases hm
        | some g =>
          rw [he] at hm; simp only [askEv, Ev.asked.injEq] at hm
          exact .inr ⟨hm.1, by rw [hm.2.2.2]⟩
      · exact absurd rfl ((hes _ hm).2 _ _ _ _)
    have cl : ∀ {n j}, Ev.called n j ∈ s.log → n < s.next := fun hm => hI.fresh _ hm _ rfl
    have al : ∀ {n k p f}, Ev.asked n k p f ∈ s.log → n < s.next := fun hm => hI.fresh _ hm _ rfl
    -- a call that handed over something through `i` before: then `i` is empty
    have key : ∀ n k p f, Ev.called n i ∈ s.log → Ev.asked n k p f ∈ s.log → w.exec = none := by
      intro n k p f h1 h2
      obtain ⟨w', h3, h4⟩ := hS.spent n i k p f h1 h2
      rw [hw] at h3; cases h3; exact h4
    refine ⟨?_, ?_, ?_⟩
    · intro n j hm
      rw [hs, List.length_set]
      rcases hcalled n j hm with h | ⟨-, rfl⟩
      · exact hS.bound n j h
      · exact hi
    · intro n j k p f h1 h2
      by_cases hj : j = i
      · subst hj
        exact ⟨empty w, by rw [hs, List.getElem?_set_self hi], rfl⟩
      · rcases hcalled n j h1 with h3 | ⟨-, h3⟩
        · rcases hasked n k p f h2 with h4 | ⟨h4, -⟩
          · obtain ⟨w', h5, h6⟩ := hS.spent n j k p f h3 h4
            exact ⟨w', by rw [hs, List.getElem?_set_ne (Ne.symm hj)]; exact h5, h6⟩
          · have := cl h3; omega
        · exact absurd h3 hj
    · intro n m j k p f k' p' f' h1 h2 h3 h4
      rcases hcalled n j h1 with a1 | ⟨a1, b1⟩ <;> rcases hasked n k p f h2 with a2 | ⟨a2, b2⟩ <;>
        rcases hcalled m j h3 with a3 | ⟨a3, b3⟩ <;> rcases hasked m k' p' f' h4 with a4 | ⟨a4, b4⟩
      · exact hS.once n m j k p f k' p' f' a1 a2 a3 a4
      · have := cl a3; omega
      · have := al a4; omega
      · subst b3; rw [key n k p f a1 a2] at b4; cases b4
      · have := cl a1; omega
      · have := cl a1; omega
      · have := cl a1; omega
      · have := cl a1; omega
      · have := al a2; omega
      · have := al a2; omega
      · have := al a2; omega
      · have := al a2; omega
      · subst b1; rw [key m k' p' f' a3 a4] at b2; cases b2
      · have := cl a3; omega
      · have := al a4; omega
      · omega
  | @other x es hs hlog h1 h2 =>
    have hcalled : ∀ n j, Ev.called n j ∈ s'.log → Ev.called n j ∈ s.log ∨ Ev.called n j ∈ es := by
      intro n j hm; rw [hlog] at hm; exact List.mem_append.1 hm
    have hasked : ∀ n k p f, Ev.asked n k p f ∈ s'.log → Ev.asked n k p f ∈ s.log ∨ Ev.asked n k p f ∈ es := by
      intro n k p f hm; rw [hlog] at hm; exact List.mem_append.1 hm
    have both : ∀ n j k p f, Ev.called n j ∈ s'.log → Ev.asked n k p f ∈ s'.log → Ev.called n j ∈ s.log ∧ Ev.asked n k p f ∈ s.log := by
      intro n j k p f a b
      rcases hcalled n j a with a | a <;> rcases hasked n k p f b with b | b
      · exact ⟨a, b⟩
      · have := h2 n k p f b; have := hI.fresh _ a _ rfl; omega
      · have := (h1 n j a).2.1; have := hI.fresh _ b _ rfl; omega
      · exact absurd b ((h1 n j a).2.2 n k p f)
    refine ⟨?_, ?_, ?_⟩
    · intro n j hm
      rw [hs, List.length_append]
      rcases hcalled n j hm with h | h
      · have := hS.bound n j h; omega
      · have := (h1 n j h).1; omega
    · intro n j k p f a b
      obtain ⟨a, b⟩ := both n j k p f a b
      obtain ⟨w, h3, h4⟩ := hS.spent n j k p f a b
      exact ⟨w, by rw [hs, List.getElem?_append_left (hS.bound n j a)]; exact h3, h4⟩
    · intro n m j k p f k' p' f' a b a' b'
      obtain ⟨a, b⟩ := both n j k p f a b
      obtain ⟨a', b'⟩ := both m j k' p' f' a' b'
      exact hS.once n m j k p f k' p' f' a b a' b'

end Maf.Exe
