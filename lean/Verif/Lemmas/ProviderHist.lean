import Verif.Lemmas.ProviderLocal
/-
What histories of a provider have in common.
-/
namespace Maf.Prov
open Maf.Calls

abbrev Run (l : List Event) : Prop := ∃ as s, run (Calls.init sys) as = some s ∧ s.log = l

theorem Run.left {l r : List Event} (h : Run (l ++ r)) : Run l := by
  obtain ⟨as, s, hr, hl⟩ := h
  exact run_prefix hr hl

theorem Run.hist {l : List Event} (h : Run l) : Hist EvOk l := by
  obtain ⟨as, s, hr, rfl⟩ := h
  exact (good_run hr).hist

theorem Run.ok {l r : List Event} {e : Event} (h : Run (l ++ e :: r)) : EvOk l e := h.hist.all l e r rfl

theorem Run.did {l r : List Event} {n : Nat} {q : Query} {a : Ans q} (h : Run (l ++ .did n q a :: r)) :
    ∃ c pre, Ev.called n c ∈ l ∧ trace (S := sys) n l = .called n c :: evs (S := sys) n pre ∧ LocalOk c pre ⟨q, a⟩ := by
  obtain ⟨as, s, hr, hl⟩ := h
  exact local_did hr hl

theorem Run.one {l : List Event} (h : Run l) {n : Nat} {c c' : Call} (h1 : .called n c ∈ l) (h2 : .called n c' ∈ l) : c = c' := by
  obtain ⟨as, s, hr, rfl⟩ := h
  exact called_one hr h1 h2

/-- The same, of a call that is known. -/
theorem Run.by {l r : List Event} {n : Nat} {q : Query} {a : Ans q} {c : Call} (h : Run (l ++ .did n q a :: r)) (hc : .called n c ∈ l ++ .did n q a :: r) :
    Ev.called n c ∈ l ∧ ∃ pre, trace (S := sys) n l = .called n c :: evs (S := sys) n pre ∧ LocalOk c pre ⟨q, a⟩ := by
  obtain ⟨c', pre, h1, h2, h3⟩ := h.did
  obtain rfl := h.one hc (List.mem_append_left _ h1)
  exact ⟨h1, pre, h2, h3⟩

theorem Run.pendNodup {l : List Event} (h : Run l) : (pendIn l).Nodup := by
  obtain ⟨as, s, hr, rfl⟩ := h
  have := (good_run hr).abs
  rw [← this.pend]; exact this.nodup

theorem Run.pendMsg {l : List Event} (h : Run l) {r : Rid} (hr : r ∈ pendIn l) : ∃ m, msgIn l r = some m := by
  obtain ⟨as, s, hr', rfl⟩ := h
  have := (good_run hr').abs
  rw [← this.pend] at hr
  exact ⟨_, by rw [this.msg, if_pos (this.lt r hr)]⟩

theorem Run.validMsg {l : List Event} (h : Run l) {r : Rid} (hr : validIn l r = true) : ∃ m, msgIn l r = some m := by
  obtain ⟨as, s, hr', rfl⟩ := h
  have := (good_run hr').abs
  by_cases hlt : r < s.sh.nextR
  · exact ⟨_, by rw [this.msg, if_pos hlt]⟩
  · have h1 := this.news r (Nat.le_of_not_lt hlt)
    rw [this.valid, hr] at h1; cases h1

/-- The message of a request is that of the call that made it. -/
theorem msg_event {l : List Event} {r : Rid} {m : Msg} (h : msgIn l r = some m) : ∃ n, .did n (.newReq m) r ∈ l := by
  revert h
  refine snoc_induct (motive := fun l => msgIn l r = some m → ∃ n, .did n (.newReq m) r ∈ l) (by simp [msgIn]) ?_ l
  intro l e ih h
  rw [msgIn_one] at h
  have old : msgIn l r = some m → ∃ n, .did n (.newReq m) r ∈ l ++ [e] := fun h => (ih h).elim fun n hn => ⟨n, List.mem_append_left _ hn⟩
  cases e with
  | did n q a =>
    cases q with
    | newReq m' =>
      simp only [msgStep] at h
      split at h
      · next e => cases h; subst e; exact ⟨n, by simp⟩
      · exact old h
    | _ => exact old h
  | _ => exact old h

theorem Run.msgEvent {l : List Event} (h : Run l) {r : Rid} {m : Msg} (hm : msgIn l r = some m) : ∃ n, .did n (.newReq m) r ∈ l ∧ .called n (.incoming m) ∈ l ∧ m.code = .request := by
  obtain ⟨n, hn⟩ := msg_event hm
  obtain ⟨a, b, rfl⟩ := List.append_of_mem hn
  obtain ⟨c, pre, h1, h2, rfl, h3, -⟩ := h.did
  exact ⟨n, hn, List.mem_append_left _ h1, h3⟩

/-- The message of a request stays the same. -/
theorem Run.msgLater {l l' : List Event} (h : Run (l ++ l')) {r : Rid} {m : Msg} (hm : msgIn l r = some m) : msgIn (l ++ l') r = some m := by
  refine Hist.later (I := fun l => msgIn l r = some m) hm ?_ h.hist
  intro l' e h1 h2
  rw [msgIn_one, h1]
  cases e with
  | did n q a =>
    cases q with
    | newReq m' =>
      simp only [msgStep]
      split
      · next e => subst e; rw [h2.1] at h1; cases h1
      · rfl
    | _ => rfl
  | _ => rfl

theorem Run.msgAt {l l' : List Event} {n : Nat} {r : Rid} {m : Msg} (h : Run (l ++ .did n (.newReq m) r :: l')) : msgIn (l ++ .did n (.newReq m) r :: l') r = some m := by
  have h' : Run ((l ++ [.did n (.newReq m) r]) ++ l') := by simpa using h
  have := h'.msgLater (r := r) (m := m) (by simp [msgIn_one, msgStep])
  simpa using this

theorem Run.msgOf {l : List Event} {n : Nat} {r : Rid} {m : Msg} (h : Run l) (hm : .did n (.newReq m) r ∈ l) : msgIn l r = some m := by
  obtain ⟨a, b, rfl⟩ := List.append_of_mem hm
  exact h.msgAt

/-- An invalid request stays invalid. -/
theorem Run.invalidLater {l l' : List Event} (h : Run (l ++ l')) {r : Rid} (hm : msgIn l r ≠ none) (hv : validIn l r = false) : validIn (l ++ l') r = false := by
  refine (Hist.later (I := fun l => msgIn l r ≠ none ∧ validIn l r = false) ⟨hm, hv⟩ ?_ h.hist).2
  intro l' e ⟨h0, h1⟩ h2
  rw [msgIn_one, validIn_one, h1]
  cases e with
  | did n q a =>
    cases q with
    | newReq m' =>
      simp only [msgStep, validStep]
      split
      · next e => subst e; exact absurd h2.1 h0
      · exact ⟨h0, rfl⟩
    | invalidate r' =>
      simp only [msgStep, validStep, ite_self]
      exact ⟨h0, trivial⟩
    | _ => exact ⟨h0, rfl⟩
  | _ => exact ⟨h0, rfl⟩

/-- A request that is not pending any more is not pending again. -/
theorem Run.goneLater {l l' : List Event} (h : Run (l ++ l')) {r : Rid} (hm : msgIn l r ≠ none) (hv : r ∉ pendIn l) : r ∉ pendIn (l ++ l') := by
  refine (Hist.later (I := fun l => msgIn l r ≠ none ∧ r ∉ pendIn l) ⟨hm, hv⟩ ?_ h.hist).2
  intro l' e ⟨h0, h1⟩ h2
  rw [msgIn_one, pendIn_one]
  cases e with
  | did n q a =>
    cases q with
    | newReq m' =>
      simp only [msgStep, pendStep]
      by_cases e : a = r
      · subst e; exact absurd h2.1 h0
      · refine ⟨by simpa [e] using h0, ?_⟩
        simp only [List.mem_append, List.mem_singleton, not_or]
        exact ⟨h1, Ne.symm e⟩
    | find op id rm =>
      refine ⟨h0, ?_⟩
      cases rm <;> cases a <;> simp_all [pendStep]
    | _ => exact ⟨h0, h1⟩
  | _ => exact ⟨h0, h1⟩

/-- What is found is pending, and has the operation and the id. -/
theorem Run.found {l l' : List Event} {n : Nat} {op : OpId} {id : Option Nat} {rm : Bool} {r : Rid} (h : Run (l ++ .did n (.find op id rm) (some r) :: l')) :
    r ∈ pendIn l ∧ ∃ m, msgIn l r = some m ∧ m.op = op ∧ m.id = id := by
  have h1 : some r = (pendIn l).find? (hasId l op id) := h.ok.1
  have h2 := List.find?_some h1.symm
  have h3 := List.mem_of_find?_eq_some h1.symm
  refine ⟨h3, ?_⟩
  unfold hasId at h2
  split at h2
  · next m hm => exact ⟨m, hm, by simpa using h2⟩
  · cases h2

/-- A request is taken once. -/
theorem Run.takenOnce {l l' : List Event} {n : Nat} {op : OpId} {id : Option Nat} {r : Rid} (h : Run (l ++ .did n (.find op id true) (some r) :: l')) :
    ∀ n' op' id' rm, .did n' (.find op' id' rm) (some r) ∉ l' := by
  intro n' op' id' rm hm
  obtain ⟨a, b, rfl⟩ := List.append_of_mem hm
  obtain ⟨-, m, hm, -⟩ := Run.found h
  have h1 : r ∉ pendIn (l ++ [.did n (.find op id true) (some r)]) := by rw [pendIn_one]; simp [pendStep]
  have h2 : Run ((l ++ [.did n (.find op id true) (some r)]) ++ (a ++ .did n' (.find op' id' rm) (some r) :: b)) := by simpa using h
  have h3 : msgIn (l ++ [.did n (.find op id true) (some r)]) r ≠ none := by rw [h2.left.msgLater hm]; simp
  rw [← List.append_assoc] at h2
  exact h2.left.goneLater h3 h1 h2.found.1

/-- A request that can not be found any more has been taken. -/
theorem Run.takenBy {l : List Event} (h : Run l) {r : Rid} {m : Msg} (hm : msgIn l r = some m) (hp : r ∉ pendIn l) : ∃ n op id, .did n (.find op id true) (some r) ∈ l := by
  have hh := h.hist
  clear h
  revert hh hm hp
  refine snoc_induct (motive := fun l => msgIn l r = some m → r ∉ pendIn l → Hist EvOk l → ∃ n op id, .did n (.find op id true) (some r) ∈ l) (by simp [msgIn]) ?_ l
  intro l e ih hm hp hh
  rw [msgIn_one] at hm
  rw [pendIn_one] at hp
  have old : msgIn l r = some m → r ∉ pendIn l → ∃ n op id, .did n (.find op id true) (some r) ∈ l ++ [e] := fun h1 h2 => by
    obtain ⟨n, op, id, hn⟩ := ih h1 h2 hh.left
    exact ⟨n, op, id, List.mem_append_left _ hn⟩
  cases e with
  | did n q a =>
    cases q with
    | newReq m' =>
      simp only [msgStep] at hm
      simp only [pendStep, List.mem_append, List.mem_singleton, not_or] at hp
      rw [if_neg (Ne.symm hp.2)] at hm
      exact old hm hp.1
    | find op id rm =>
      cases a with
      | none => cases rm <;> exact old hm hp
      | some r' =>
        cases rm with
        | false => exact old hm hp
        | true =>
          simp only [pendStep, List.mem_filter, not_and, bne_iff_ne, Decidable.not_not] at hp
          by_cases e : r ∈ pendIn l
          · obtain rfl := hp e; exact ⟨n, op, id, by simp⟩
          · exact old hm e
    | _ => exact old hm hp
  | _ => exact old hm hp

end Maf.Prov
