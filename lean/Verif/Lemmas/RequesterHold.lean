import Verif.Lemmas.RequesterData
/-
Who can still set the promise of a synchronous request; every event of a history obeys its rule.
-/
namespace Maf.Req

inductive HStep (s s' : State) : Prop
  | same (h1 : s'.pc = s.pc) (h2 : s'.holders = s.holders) (h3 : s'.promise = s.promise) (h4 : s'.log = s.log)
  | other {n pc es} (hpc : ∀ id p, s.pc n ≠ .fulfil id p) (hpc' : ∀ id p, pc ≠ .fulfil id p) (h1 : s'.pc = upd s.pc n pc) (h2 : s'.holders = s.holders)
      (h3 : s'.promise = s.promise) (h4 : s'.log = s.log ++ es) (h5 : ∀ n m, .taken n m (some .sync) ∉ es)
  | take {n m id p} (hpc : ∀ id p, s.pc n ≠ .fulfil id p) (hid : m.id = some id) (h1 : s'.pc = upd s.pc n (.fulfil id p)) (h2 : s'.holders = upd s.holders id (n :: s.holders id))
      (h3 : s'.promise = s.promise) (h4 : s'.log = s.log ++ [.taken n m (some .sync)])
  | set {n id p es} (hpc : s.pc n = .fulfil id p) (h1 : s'.pc = upd s.pc n .done) (h2 : s'.holders = upd s.holders id ((s.holders id).erase n))
      (h3 : s'.promise id ≠ none) (h3' : ∀ j, s.promise j ≠ none → s'.promise j ≠ none) (h4 : s'.log = s.log ++ es) (h5 : ∀ n m, .taken n m (some .sync) ∉ es)

theorem hstep {s s' : State} {a : Act} (hi : PathI s) (hs : step s a = some s') : HStep s s' := by
  unfold step at hs
  split at hs
  · cases hs
  cases a with
  | call c => cases hs; exact .other (n := s.nextC) (by rw [hi.new _ (Nat.le_refl _)]; simp) (by simp) rfl rfl rfl rfl (by simp)
  | back n st =>
    simp only at hs
    cases hpc : s.pc n <;> rw [hpc] at hs <;> try (cases hs; done)
    · simp only [backPc] at hs
      repeat' split at hs
      all_goals (cases hs; exact .other (n := n) (by simp [hpc]) (by simp) rfl rfl rfl rfl (by simp))
    · cases hs; exact .other (n := n) (by simp [hpc]) (by simp) rfl rfl rfl rfl (by simp)
    · cases hs; exact .other (n := n) (by simp [hpc]) (by simp) rfl rfl rfl rfl (by simp)
  | expire n =>
    simp only at hs
    split at hs
    · next hpc =>
      split at hs
      · cases hs; exact .other (n := n) (by simp [hpc]) (by simp) rfl rfl rfl rfl (by simp)
      · cases hs
    · cases hs
  | step n =>
    simp only at hs
    cases hpc : s.pc n with
    | start c =>
      rw [hpc] at hs
      simp only [stepPc] at hs
      cases c <;> simp only [begin_] at hs
      all_goals
        (repeat' split at hs)
        all_goals first
          | (cases hs; done)
          | (cases hs; exact .other (n := n) (by simp [hpc]) (by simp) rfl rfl rfl rfl (by simp))
    | readCache op u =>
      rw [hpc] at hs
      simp only [stepPc] at hs
      split at hs
      · cases hs; exact .same rfl rfl rfl rfl
      · (repeat' split at hs)
        all_goals (cases hs; exact .other (n := n) (by simp [hpc]) (by simp) rfl rfl rfl rfl (by simp))
    | reqRes m =>
      rw [hpc] at hs
      simp only [stepPc] at hs
      split at hs
      · cases hs; exact .other (n := n) (by simp [hpc]) (by simp) rfl rfl rfl rfl (by simp)
      · next id tg hf =>
        have hid : m.id = some id := by
          have := List.find?_some hf
          simp at this
          exact this.symm
        split at hs <;> cases hs
        · by_cases hc : m.code = .partialUpdate
          · simp only [hc, if_true]; exact .other (n := n) (by simp [hpc]) (by simp) rfl rfl rfl rfl (by simp)
          · simp only [hc, if_false]; exact .other (n := n) (by simp [hpc]) (by simp) rfl rfl rfl rfl (by simp)
        · by_cases hc : m.code = .partialUpdate
          · simp only [hc, if_true]; exact .other (n := n) (by simp [hpc]) (by simp) rfl rfl rfl rfl (by simp)
          · simp only [hc, if_false]; exact .other (n := n) (by simp [hpc]) (by simp) rfl rfl rfl rfl (by simp)
        · by_cases hc : m.code = .partialUpdate
          · simp only [hc, if_true]; exact .take (n := n) (by simp [hpc]) hid rfl rfl rfl rfl
          · simp only [hc, if_false]; exact .take (n := n) (by simp [hpc]) hid rfl rfl rfl rfl
    | fulfil id p =>
      rw [hpc] at hs
      simp only [stepPc] at hs
      split at hs <;> cases hs
      · refine .set hpc rfl rfl ?_ ?_ rfl (by simp)
        · simp
        · intro j hj; simp only; by_cases e : j = id
          · subst e; simp
          · rw [upd_other e]; exact hj
      · next h => exact .set hpc rfl rfl (by simp [go, h]) (fun j hj => hj) rfl (by simp)
    | runCbs m a fs =>
      rw [hpc] at hs
      cases fs with
      | cons f fs => cases hs; exact .other (n := n) (by simp [hpc]) (by simp) rfl rfl rfl rfl (by simp)
      | nil =>
        simp only [stepPc] at hs
        split at hs <;> (cases hs; exact .other (n := n) (by simp [hpc]) (by simp) rfl rfl rfl rfl (by simp))
    | _ =>
      rw [hpc] at hs
      simp only [stepPc] at hs
      (repeat' split at hs)
      all_goals first
        | (cases hs; done)
        | (cases hs; exact .other (n := n) (by simp [hpc]) (by simp) rfl rfl rfl rfl (by simp))

structure HoldI (s : State) : Prop where
  nodup : ∀ id, (s.holders id).Nodup
  iff : ∀ n id, n ∈ s.holders id ↔ ∃ p, s.pc n = .fulfil id p
  taken : ∀ n m id, .taken n m (some .sync) ∈ s.log → m.id = some id → s.promise id ≠ none ∨ s.holders id ≠ []

theorem HoldI_step {s s' : State} {a : Act} (h : HoldI s) (hi : PathI s) (hs : step s a = some s') : HoldI s' := by
  cases hstep hi hs with
  | same h1 h2 h3 h4 => exact ⟨h2 ▸ h.nodup, h1 ▸ h2 ▸ h.iff, h2 ▸ h3 ▸ h4 ▸ h.taken⟩
  | @other n pc es hpc hpc' h1 h2 h3 h4 h5 =>
    refine ⟨h2 ▸ h.nodup, fun m id => ?_, fun k m id hk hid => ?_⟩
    · rw [h2, h1, h.iff]
      by_cases e : m = n
      · subst e; rw [upd_same]; simp [hpc, hpc']
      · rw [upd_other e]
    · rw [h4, List.mem_append] at hk
      rw [h2, h3]
      exact h.taken k m id (hk.resolve_right (h5 k m)) hid
  | @take n m id p hpc hid h1 h2 h3 h4 =>
    have hn : n ∉ s.holders id := fun k => by obtain ⟨p, hp⟩ := (h.iff n id).1 k; exact hpc _ _ hp
    refine ⟨fun j => ?_, fun k j => ?_, fun k m' j hk hj => ?_⟩
    · rw [h2]
      by_cases e : j = id
      · subst e; rw [upd_same]; exact List.nodup_cons.2 ⟨hn, h.nodup j⟩
      · rw [upd_other e]; exact h.nodup j
    · rw [h2, h1]
      by_cases e : j = id
      · subst e
        rw [upd_same]
        by_cases e' : k = n
        · subst e'; simp
        · rw [upd_other e', List.mem_cons]; simp [e', h.iff]
      · rw [upd_other e, h.iff]
        by_cases e' : k = n
        · subst e'; rw [upd_same]; simp [hpc, Ne.symm e]
        · rw [upd_other e']
    · rw [h4, List.mem_append] at hk
      rw [h2, h3]
      rcases hk with hk | hk
      · rcases h.taken k m' j hk hj with k | k
        · exact .inl k
        · right
          by_cases e : j = id
          · subst e; rw [upd_same]; simp
          · rw [upd_other e]; exact k
      · simp at hk
        obtain ⟨rfl, rfl⟩ := hk
        rw [hid] at hj; cases hj
        right; rw [upd_same]; simp
  | @set n id p es hpc h1 h2 h3 h3' h4 h5 =>
    refine ⟨fun j => ?_, fun k j => ?_, fun k m' j hk hj => ?_⟩
    · rw [h2]
      by_cases e : j = id
      · subst e; rw [upd_same]; exact (h.nodup j).erase n
      · rw [upd_other e]; exact h.nodup j
    · rw [h2, h1]
      by_cases e : j = id
      · subst e
        rw [upd_same, (h.nodup j).mem_erase_iff, h.iff]
        by_cases e' : k = n
        · subst e'; simp
        · rw [upd_other e']; simp [e']
      · rw [upd_other e, h.iff]
        by_cases e' : k = n
        · subst e'; rw [upd_same, hpc]; simp [Ne.symm e]
        · rw [upd_other e']
    · rw [h4, List.mem_append] at hk
      by_cases e : j = id
      · subst e; exact .inl h3
      · rcases h.taken k m' j (hk.resolve_right (h5 k m')) hj with q | q
        · exact .inl (h3' j q)
        · right; rw [h2, upd_other e]; exact q

theorem HoldI_init : HoldI init := ⟨fun _ => by simp [init], fun _ _ => by simp [init], fun _ _ _ h => by cases h⟩

/-! ### Facts about histories -/

theorem mem_pendIn {l : List Ev} {op : Op} {id : Id} {tg : Target} (h : (id, tg) ∈ pendIn l op) : ∃ n, .stored n op id tg ∈ l := by
  have : ∀ (l : List Ev) (acc : List (Id × Target)), (id, tg) ∈ l.foldl (pendStep op) acc → (id, tg) ∈ acc ∨ ∃ n, .stored n op id tg ∈ l := by
    intro l
    induction l with
    | nil => exact fun acc h => .inl h
    | cons e l ih =>
      intro acc h
      rcases ih _ h with k | ⟨n, k⟩
      · by_cases hst : ∃ n, e = .stored n op id tg
        · obtain ⟨n, rfl⟩ := hst; exact .inr ⟨n, by simp⟩
        · left
          cases e <;> simp only [pendStep] at k <;> try exact k
          · split at k
            · next e =>
              subst e
              rcases List.mem_append.1 k with k | k
              · exact k
              · simp at k; exact absurd ⟨_, by rw [k.1, k.2]⟩ hst
            · exact k
          all_goals first
            | (split at k
               · exact (List.mem_filter.1 k).1
               · exact k)
            | cases k
      · exact .inr ⟨n, by simp [k]⟩
  rcases this l [] h with k | k
  · cases k
  · exact k

/-- An id belongs to one request. -/
theorem stored_once {log : List Ev} (h : Hist EvOk log) {a b a' b' : List Ev} {n n' : Cid} {op op' : Op} {id : Id} {tg tg' : Target}
    (h1 : log = a ++ .stored n op id tg :: b) (h2 : log = a' ++ .stored n' op' id tg' :: b') : a = a' ∧ n = n' ∧ op = op' ∧ tg = tg' := by
  rcases places (h1.symm.trans h2) with ⟨k1, k2, -⟩ | ⟨c, k1, -⟩ | ⟨c, k1, -⟩
  · cases k2; exact ⟨k1, rfl, rfl, rfl⟩
  · exact absurd (by rw [k1]; simp) ((h.all a' _ _ h2).1 n op tg)
  · exact absurd (by rw [k1]; simp) ((h.all a _ _ h1).1 n' op' tg')

theorem stored_once' {log : List Ev} (h : Hist EvOk log) {n n' : Cid} {op op' : Op} {id : Id} {tg tg' : Target}
    (h1 : .stored n op id tg ∈ log) (h2 : .stored n' op' id tg' ∈ log) : n = n' ∧ op = op' ∧ tg = tg' := by
  obtain ⟨a, b, h1⟩ := List.append_of_mem h1
  obtain ⟨a', b', h2⟩ := List.append_of_mem h2
  exact (stored_once h h1 h2).2

theorem taken_stored {log : List Ev} (h : Hist EvOk log) {n : Cid} {m : Msg} {tg : Target} (hm : .taken n m (some tg) ∈ log) :
    ∃ id k, m.id = some id ∧ .stored k m.op id tg ∈ log := by
  obtain ⟨a, b, h1⟩ := List.append_of_mem hm
  obtain ⟨id, hid, hp⟩ := (h.all a _ _ h1 tg).1 rfl
  obtain ⟨k, hk⟩ := mem_pendIn hp
  exact ⟨id, k, hid, by rw [h1]; simp [hk]⟩

theorem mem_trace {n : Cid} {l : List Ev} {e : Ev} (h : e ∈ trace n l) : e ∈ l := (List.mem_filter.1 h).1

/-- All invariants. -/
structure Good (s : State) : Prop where
  path : PathI s
  abs : Abs s
  hold : HoldI s
  hist : Hist EvOk s.log

theorem waiting_stored {s : State} (h : PathI s) {n : Cid} {op : Op} {id : Id} {t : Bool} (hw : s.pc n = .waiting op id t) : .stored n op id .sync ∈ s.log := by
  have := h.path n
  rw [hw] at this
  obtain ⟨-, m, l', ⟨code, p, tg, l'', -, hst, rfl⟩, hl⟩ := this
  apply mem_trace (n := n)
  rw [hl]
  rcases hst with ⟨f, -, -, k, -⟩ | ⟨t, -, rfl, -, -⟩ | ⟨f, -, -, -, k, -⟩ | ⟨t, -, -, rfl, -, -⟩
  · cases k
  · simp
  · cases k
  · simp

theorem Good_step {s s' : State} {a : Act} (h : Good s) (hs : step s a = some s') : Good s' := by
  refine ⟨PathI_step h.path hs, Abs_step h.abs hs, HoldI_step h.hold h.path hs, ?_⟩
  obtain ⟨es, d⟩ := delta_step h.abs.nodup hs
  have key : ∀ e, StOk s e → EvOk s.log e := by
    intro e hok
    refine evOk_of h.abs hok ?_
    rintro n id rfl
    obtain ⟨hp, op, t, hw, hg⟩ := hok
    have hst := waiting_stored h.path hw
    simp only [gone, Bool.and_eq_true, Bool.not_eq_true', List.any_eq_false, beq_iff_eq] at hg
    refine ⟨(promise_none h.abs).1 hp, fun op' tg hm => ?_, fun k m tg hm hid => ?_⟩
    · obtain ⟨k, hk⟩ := mem_pendIn hm
      obtain ⟨-, rfl, rfl⟩ := stored_once' h.hist hst hk
      rw [← h.abs.reqs] at hm
      exact hg.1 _ hm rfl
    · obtain ⟨id', k', hid', hk'⟩ := taken_stored h.hist hm
      rw [hid] at hid'; cases hid'
      obtain ⟨-, -, rfl⟩ := stored_once' h.hist hst hk'
      rcases h.hold.taken k m id hm hid with q | q
      · exact q hp
      · exact q hg.2
  rw [d.log]
  rcases d.ok.cases' with rfl | ⟨e, rs, rfl, hok, rfl | ⟨n, r, rfl⟩⟩
  · simpa using h.hist
  · exact h.hist.one (key e hok)
  · exact h.hist.two (key e hok) trivial

theorem Good_run {s s' : State} {as : List Act} (h : Good s) (hr : run s as = some s') : Good s' := by
  induction as generalizing s with
  | nil => cases hr; exact h
  | cons a as ih =>
    simp only [run, Option.bind_eq_some_iff] at hr
    obtain ⟨s1, h1, h2⟩ := hr
    exact ih (Good_step h h1) h2

theorem good_of {as : List Act} {s : State} (hr : run init as = some s) : Good s :=
  Good_run ⟨PathI_init, Abs_init, HoldI_init, Hist.nil⟩ hr

end Maf.Req
