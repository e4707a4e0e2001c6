import Verif.Lemmas.SendToAllInv
/-
C117: sending to all processors and waiting.
-/
namespace Maf.Bcast
variable {home : Tid → Option Pid}

theorem inv {as : List Act} {s : State} (h : run home init as = some s) : Inv s := run_inv inv_init h

/-- Every event obeys the rules. -/
theorem rules (as : List Act) (s : State) (h : run home init as = some s) {l e m} (hl : s.log = l ++ e :: m) : EvOk l e := (inv h).hist.all l e m hl

/-- When `sendToAll` returns, each processor that had joined when it began has been asked, once, in the order of the identifiers, and the signal is valid exactly if one of them has taken the message. -/
theorem all_asked (as : List Act) (s : State) (h : run home init as = some s) {l r : List Ev} {t : Tid} {b : Nat} {v : Bool} (hl : s.log = l ++ .sent t b v :: r) :
    ∃ l1 l2 m js, l = l1 ++ .opened t b m js :: l2 ∧ asked b l = js ∧ (∀ q, q ∈ js ↔ q ∈ members l1) ∧ js.Pairwise (· < ·) ∧ (v = true ↔ tasksOf b l ≠ []) := by
  obtain ⟨-, ⟨m, h2⟩, h3⟩ := rules as s h hl
  obtain ⟨l1, l2, he⟩ := List.append_of_mem h2
  obtain ⟨-, h4, h5, -⟩ := rules as s h (l := l1) (e := .opened t b m (asked b l)) (m := l2 ++ .sent t b v :: r) (by rw [hl, ← List.cons_append, ← List.append_assoc, ← he])
  exact ⟨l1, l2, m, _, he, rfl, h4, h5, h3⟩

/-- The rules of a history never end a broadcast but by its own return. -/
theorem sending_kept {l m : List Ev} {t : Tid} {b : Nat} (hh : Hist EvOk (l ++ m)) (hs : sending l = some (t, b)) (hn : ∀ v, Ev.sent t b v ∉ m) : sending (l ++ m) = some (t, b) ∧ ∀ p, Ev.joined p ∉ m ∧ Ev.left p ∉ m := by
  have key : ∀ m : List Ev, Hist EvOk (l ++ m) → (∀ v, Ev.sent t b v ∉ m) → sending (l ++ m) = some (t, b) ∧ ∀ p, Ev.joined p ∉ m ∧ Ev.left p ∉ m := by
    refine snoc_induct ?_ ?_
    · intro _ _; simpa using hs
    · intro m e ih hr hv
      rw [← List.append_assoc] at hr
      obtain ⟨i1, i2⟩ := ih hr.left (fun v hm => hv v (by simp [hm]))
      have he := hr.all (l ++ m) e [] (by simp)
      rw [← List.append_assoc, sending_append, i1]
      simp only [List.mem_append, List.mem_singleton] at hv ⊢
      cases e <;> simp only [EvOk, i1] at he <;> simp [sendingStep, i2] <;> first | (cases he.1; done) | skip
      · obtain ⟨he, -⟩ := he
        cases he
        exact absurd (.inr rfl) (hv _)
  exact key m hh hn

/-- Nobody joins or leaves while a broadcast is on its way. -/
theorem set_unchanged (as : List Act) (s : State) (h : run home init as = some s) {l m r : List Ev} {t : Tid} {b : Nat} {msg : Msg} {js : List Pid} (hl : s.log = l ++ .opened t b msg js :: m ++ r)
    (hn : ∀ v, Ev.sent t b v ∉ m) : ∀ p, Ev.joined p ∉ m ∧ Ev.left p ∉ m := by
  have hh := (inv h).hist
  rw [hl] at hh
  have h1 := hh.left
  rw [show l ++ Ev.opened t b msg js :: m = (l ++ [.opened t b msg js]) ++ m by simp] at h1
  exact (sending_kept h1 (by simp [sending_append, sendingStep]) hn).2

/-- Each processor's handler is called at most once for a broadcast's task, with the message that was sent, and ends at most once. -/
theorem handled_at_most_once (as : List Act) (s : State) (h : run home init as = some s) {l r : List Ev} {t : Tid} {k : Nat} {q : Pid} {m : Msg} (hl : s.log = l ++ .began t k q m :: r) :
    (∃ b t' js, Ev.made b q k ∈ l ∧ Ev.opened t' b m js ∈ l) ∧ (∀ t' q' m', Ev.began t' k q' m' ∉ l ∧ Ev.began t' k q' m' ∉ r) ∧ Ev.dropped k ∉ s.log := by
  obtain ⟨h1, h2, h3⟩ := rules as s h hl
  refine ⟨h1, fun t' q' m' => ⟨h2 t' q' m', fun hr => ?_⟩, fun hd => ?_⟩
  · obtain ⟨r1, r2, rfl⟩ := List.append_of_mem hr
    obtain ⟨-, h4, -⟩ := rules as s h (l := l ++ .began t k q m :: r1) (e := .began t' k q' m') (m := r2) (by rw [hl]; simp)
    exact h4 t q m (by simp)
  · have h4 := (inv h).tsk.dropped k hd
    have h5 := (inv h).tsk.began t k q m (by rw [hl]; simp)
    exact h5.2.2 h4

/-- When `get` returns without an exception, every processor that took the message has handled it. -/
theorem get_all_handled_partial (as : List Act) (s : State) (h : run home init as = some s) {l r : List Ev} {t : Tid} {b : Nat} (hl : s.log = l ++ .got t b true :: r) :
    ∀ k ∈ tasksOf b l, ∃ t', Ev.ended t' k true ∈ l := (rules as s h hl).2

/-- When `get` throws, the exception is that of the first in order that failed; all before it have handled the message. -/
theorem get_first_failure (as : List Act) (s : State) (h : run home init as = some s) {l r : List Ev} {t : Tid} {b : Nat} (hl : s.log = l ++ .got t b false :: r) :
    ∃ xs k ys, tasksOf b l = xs ++ k :: ys ∧ (∀ x ∈ xs, ∃ t', Ev.ended t' x true ∈ l) ∧ ((∃ t', Ev.ended t' k false ∈ l) ∨ Ev.dropped k ∈ l) := (rules as s h hl).2

/-- No task is added to a broadcast after it has returned. -/
theorem tasks_settled (as : List Act) (s : State) (h : run home init as = some s) {l r : List Ev} {t : Tid} {b : Nat} {v : Bool} (hl : s.log = l ++ .sent t b v :: r) : tasksOf b s.log = tasksOf b l := by
  have hh := (inv h).hist
  rw [hl] at hh ⊢
  rw [show l ++ Ev.sent t b v :: r = (l ++ [.sent t b v]) ++ r by simp] at hh ⊢
  obtain ⟨-, ⟨m0, h2⟩, -⟩ := hh.left.all l (.sent t b v) [] (by simp)
  have key : ∀ r : List Ev, Hist EvOk (l ++ [.sent t b v] ++ r) → (∀ t', sending (l ++ [.sent t b v] ++ r) ≠ some (t', b)) ∧ tasksOf b (l ++ [.sent t b v] ++ r) = tasksOf b l := by
    refine snoc_induct ?_ ?_
    · intro _; simp [sending_append, sendingStep, tasksOf_append, tasksOf_cons, tasksOf_nil, tasksE]
    · intro r e ih hr
      rw [← List.append_assoc] at hr
      obtain ⟨i1, i2⟩ := ih hr.left
      have he := hr.all (l ++ [.sent t b v] ++ r) e [] (by simp)
      rw [← List.append_assoc, sending_append, tasksOf_append, i2, tasksOf_cons, tasksOf_nil]
      cases e with
      | opened t' b' m' js' =>
        obtain ⟨-, -, -, h3⟩ := he
        refine ⟨fun t'' => ?_, by simp [tasksE]⟩
        simp only [List.foldl, sendingStep, ne_eq, Option.some.injEq, Prod.mk.injEq, not_and]
        rintro - rfl
        exact h3 t m0 (asked b' l) (by simp [h2])
      | made b' q' k' =>
        obtain ⟨⟨t', h3⟩, -⟩ := he
        refine ⟨i1, ?_⟩
        have : b' ≠ b := by rintro rfl; exact i1 t' h3
        simp [tasksE, this]
      | _ => first | exact ⟨i1, by simp [tasksE]⟩ | exact ⟨by simp [sendingStep], by simp [tasksE]⟩
  exact (key r hh).2

/-- The thread in the loop can always go on: it asks the next processor, skipping those that do not know the message, and gives it the message exactly if the processor is not stopped and has a handler. -/
theorem asks (s : State) (t : Tid) (b : Nat) (m : Msg) (q : Pid) (qs : List Pid) (ks : List Nat) (rest : List Frame) (h : s.stk t = .sending b m (q :: qs) ks :: rest) :
    ∃ as s', run home s as = some s' ∧ (s'.log = s.log ++ [.skipped b q] ∨ s'.log = s.log ++ [.refused b q] ∨ s'.log = s.log ++ [.made b q s.nextT] ∨ s'.log = s.log ++ [.made b q s.nextT, .began t s.nextT q m]) ∧
      (tasksOf b s'.log = tasksOf b s.log ++ [s.nextT] ↔ s.stopped q = false ∧ s.has q m = .live) ∧ (home t = some q → s.stopped q = false → s.has q m = .live → Ev.began t s.nextT q m ∈ s'.log) := by
  cases hh : s.has q m with
  | absent =>
    exact ⟨[.ask t], _, by simp only [run, step, h, hh, if_true]; rfl, .inl rfl, by simp [tasksOf_append, tasksOf_cons, tasksOf_nil, tasksE], by simp⟩
  | hollow =>
    exact ⟨[.ask t, .post t], _, by simp [run, step, h, hh, upd, accepts]; rfl, .inr (.inl rfl), by simp [tasksOf_append, tasksOf_cons, tasksOf_nil, tasksE], by simp⟩
  | live =>
    cases hs : s.stopped q with
    | true => exact ⟨[.ask t, .post t], _, by simp [run, step, h, hh, hs, upd, accepts]; rfl, .inr (.inl rfl), by simp [tasksOf_append, tasksOf_cons, tasksOf_nil, tasksE], by simp⟩
    | false =>
      by_cases ht : home t = some q
      · exact ⟨[.ask t, .post t], _, by simp [run, step, h, hh, hs, ht, upd, accepts]; rfl, .inr (.inr (.inr rfl)), by simp [tasksOf_append, tasksOf_cons, tasksOf_nil, tasksE], by simp⟩
      · exact ⟨[.ask t, .post t], _, by simp [run, step, h, hh, hs, ht, upd, accepts]; rfl, .inr (.inr (.inl rfl)), by simp [tasksOf_append, tasksOf_cons, tasksOf_nil, tasksE], by simp [ht]⟩

/-- `get` can return once every task it waits for is over. -/
theorem get_returns (as : List Act) (s : State) (h : run home init as = some s) (t : Tid) (b : Nat) (ks : List Nat) (rest : List Frame) (hf : s.stk t = .get b ks :: rest)
    (ho : ∀ k ∈ ks, (∃ t' ok, Ev.ended t' k ok ∈ s.log) ∨ Ev.dropped k ∈ s.log) :
    ∃ n s' ok, run home s (List.replicate n (.next t)) = some s' ∧ s'.log = s.log ++ [.got t b ok] ∧ s'.stk t = rest := by
  have hi := inv h
  clear h
  induction ks generalizing s with
  | nil => exact ⟨1, _, true, by simp [List.replicate, run, step, hf]; rfl, rfl, by simp [upd]⟩
  | cons k ks ih =>
    have fin : ∀ x, (s.tasks k).map Task.st = some x → x = .threw ∨ x = .broken → ∃ n s' ok, run home s (List.replicate n (.next t)) = some s' ∧ s'.log = s.log ++ [.got t b ok] ∧ s'.stk t = rest := by
      rintro x hx (rfl | rfl)
      · exact ⟨1, _, false, by simp only [List.replicate, run, step, hf, hx]; rfl, rfl, by simp [upd]⟩
      · exact ⟨1, _, false, by simp only [List.replicate, run, step, hf, hx]; rfl, rfl, by simp [upd]⟩
    rcases ho k (by simp) with ⟨t', ok, h1⟩ | h1
    · have h2 : (s.tasks k).map Task.st = _ := hi.tsk.ended t' k ok h1
      cases ok with
      | false => exact fin _ h2 (.inl rfl)
      | true =>
        have hst : step home s (.next t) = some { s with stk := upd s.stk t (.get b ks :: rest) } := by
          simp only [step, hf]; rw [h2]; rfl
        obtain ⟨n, s', ok, h3, h4, h5⟩ := ih { s with stk := upd s.stk t (.get b ks :: rest) } (by simp [upd]) (fun k' hk => ho k' (by simp [hk])) (inv_move (step_move hst) hi)
        exact ⟨n + 1, s', ok, by simp only [List.replicate_succ, run]; rw [hst]; exact h3, h4, h5⟩
    · exact fin _ (hi.tsk.dropped k h1) (.inr rfl)

/-- A handler that is called during `sendToAll`, in its thread, and that uses the router blocks for ever, and everybody else who uses the router too: nobody joins, leaves or sends any more, and `sendToAll` never
returns. -/
theorem router_in_handler_forever (as : List Act) (s : State) (h : run home init as = some s) (t : Tid) (w : Want) (rest : List Frame) (b : Nat) (m : Msg) (qs : List Pid) (ks : List Nat) (hw : s.stk t = .wants w :: rest)
    (hf : Frame.sending b m qs ks ∈ rest) (bs : List Act) (s' : State) (h' : run home s bs = some s') :
    s'.stk t = s.stk t ∧ s'.owner = some t ∧ s'.joined = s.joined ∧ sending s'.log = sending s.log ∧ ∀ t', step home s' (.lock t') = none := by
  have hi := inv h
  have ho : s.owner = some t := by
    have h1 := hi.own.one t
    rw [hw, List.filter_cons_of_neg (by simp [isSend])] at h1
    split at h1
    · next e => exact e
    · have := none_send h1 hf; cases this
  have key : ∀ bs s s', Inv s → s.owner = some t → s.stk t = .wants w :: rest → run home s bs = some s' →
      s'.stk t = .wants w :: rest ∧ s'.owner = some t ∧ s'.joined = s.joined ∧ sending s'.log = sending s.log := by
    intro bs
    induction bs with
    | nil => intro s s' _ ho hw h'; cases h'; exact ⟨hw, ho, rfl, rfl⟩
    | cons a bs ih =>
      intro s s' hi ho hw h'
      simp only [run, Option.bind_eq_some_iff] at h'
      obtain ⟨s1, h1, h2⟩ := h'
      have hm := step_move h1
      have hnow : ∀ t' f' r', s.stk t' = f' :: r' → isSend f' = true → t' ≠ t → False := by
        intro t' f' r' e hf' hne
        have h3 := hi.own.one t'
        rw [e, List.filter_cons_of_pos hf', ho, if_neg (by simp; exact fun e => hne e.symm)] at h3
        simp at h3
      have hkeep : s1.stk t = .wants w :: rest ∧ s1.owner = some t ∧ s1.joined = s.joined ∧ sending s1.log = sending s.log := by
        cases hm with
        | start t m rest h hn => rw [ho] at hn; cases hn
        | unlock t w rest h hn => rw [ho] at hn; cases hn
        | join t p rest h hn => rw [ho] at hn; cases hn
        | leave t p rest h hn => rw [ho] at hn; cases hn
        | send t' b m ks r' h =>
          by_cases e : t' = t
          · subst e; rw [hw] at h; cases h
          · exact (hnow _ _ _ h rfl e).elim
        | _ => refine ⟨?_, ho, rfl, ?_⟩ <;> (try simp only [sending_append, List.foldl, sendingStep]) <;> grind [upd, user]
      have h3 := ih s1 s' (inv_move hm hi) hkeep.2.1 hkeep.1 h2
      exact ⟨h3.1, h3.2.1, h3.2.2.1.trans hkeep.2.2.1, h3.2.2.2.trans hkeep.2.2.2⟩
  obtain ⟨h1, h2, h3, h4⟩ := key bs s s' hi ho hw h'
  refine ⟨by rw [h1, hw], h2, h3, h4, fun t' => ?_⟩
  simp only [step]
  split
  · rw [h2]; simp
  · rfl

theorem log_grows {as : List Act} {s s' : State} (h : run home s as = some s') : ∃ es, s'.log = s.log ++ es := by
  induction as generalizing s with
  | nil => cases h; exact ⟨[], by simp⟩
  | cons a as ih =>
    simp only [run, Option.bind_eq_some_iff] at h
    obtain ⟨s1, h1, h2⟩ := h
    obtain ⟨es, h3⟩ := ih h2
    have : ∃ es, s1.log = s.log ++ es := by
      cases step_move h1 <;> first | exact ⟨_, rfl⟩ | exact ⟨[], (List.append_nil _).symm⟩
    obtain ⟨es', h4⟩ := this
    exact ⟨es' ++ es, by rw [h3, h4, List.append_assoc]⟩

theorem cross_step {s s1 : State} (hm : Move home s s1) (hi : Inv s) {t1 t2 : Tid} {p1 p2 : Pid} {b1 b2 k1 k2 : Nat} {ks1 ks2 : List Nat} {r1 r2 : List Frame} {a1 a2 : Task} (h1 : ∀ t, home t = some p1 → t = t1)
    (h2 : ∀ t, home t = some p2 → t = t2) (hs1 : s.stk t1 = .get b1 (k1 :: ks1) :: r1) (hs2 : s.stk t2 = .get b2 (k2 :: ks2) :: r2) (ha1 : s.tasks k1 = some a1) (ha2 : s.tasks k2 = some a2) (hp1 : a1.proc = p2)
    (hp2 : a2.proc = p1) (hq1 : a1.st = .queued) (hq2 : a2.st = .queued) (hd1 : Ev.dropped k1 ∉ s1.log) (hd2 : Ev.dropped k2 ∉ s1.log) :
    s1.stk t1 = s.stk t1 ∧ s1.stk t2 = s.stk t2 ∧ s1.tasks k1 = some a1 ∧ s1.tasks k2 = some a2 := by
  obtain ⟨c1, q1, m1, x1⟩ := a1
  obtain ⟨c2, q2, m2, x2⟩ := a2
  simp only at hp1 hp2 hq1 hq2
  subst hp1 hp2 hq1 hq2
  have g1 := hi.bnd.tasks _ _ ha1
  have g2 := hi.bnd.tasks _ _ ha2
  have g3 := fun t => hi.tsk.frame t k1
  have g4 := fun t => hi.tsk.frame t k2
  simp only [stOf, ha1, ha2, Option.map_some, Option.some.injEq, reduceCtorEq] at g3 g4
  cases hm with
  | take t k b q m hu h hh =>
    have n1 : k1 ≠ k := by
      rintro rfl
      rw [ha1] at h
      cases h
      rw [h2 t hh, hs2] at hu
      cases hu
    have n2 : k2 ≠ k := by
      rintro rfl
      rw [ha2] at h
      cases h
      rw [h1 t hh, hs1] at hu
      cases hu
    refine ⟨?_, ?_, by simp only [setSt, upd, if_neg n1, ha1], by simp only [setSt, upd, if_neg n2, ha2]⟩ <;> grind [upd, user]
  | finish t k ok rest h =>
    have n1 : k1 ≠ k := by rintro rfl; exact g3 t (by rw [h]; simp)
    have n2 : k2 ≠ k := by rintro rfl; exact g4 t (by rw [h]; simp)
    refine ⟨?_, ?_, by simp only [setSt, upd, if_neg n1, ha1], by simp only [setSt, upd, if_neg n2, ha2]⟩ <;> grind [upd, user]
  | drop k b q m h =>
    simp only [List.mem_append, List.mem_singleton, not_or, Ev.dropped.injEq] at hd1 hd2
    exact ⟨rfl, rfl, by simp only [setSt, upd, if_neg hd1.2, ha1], by simp only [setSt, upd, if_neg hd2.2, ha2]⟩
  | _ => refine ⟨?_, ?_, ?_, ?_⟩ <;> grind [upd, user]

/-- Two processors that each wait, in their own thread, for the other to handle a broadcast wait for ever, unless one of them is stopped and destroys the task. -/
theorem cross_wait_forever (as : List Act) (s : State) (h : run home init as = some s) (t1 t2 : Tid) (p1 p2 : Pid) (b1 b2 k1 k2 : Nat) (ks1 ks2 : List Nat) (r1 r2 : List Frame) (a1 a2 : Task)
    (h1 : ∀ t, home t = some p1 → t = t1) (h2 : ∀ t, home t = some p2 → t = t2) (hs1 : s.stk t1 = .get b1 (k1 :: ks1) :: r1) (hs2 : s.stk t2 = .get b2 (k2 :: ks2) :: r2) (ha1 : s.tasks k1 = some a1)
    (ha2 : s.tasks k2 = some a2) (hp1 : a1.proc = p2) (hp2 : a2.proc = p1) (hq1 : a1.st = .queued) (hq2 : a2.st = .queued) (bs : List Act) (s' : State) (h' : run home s bs = some s')
    (hd : Ev.dropped k1 ∉ s'.log ∧ Ev.dropped k2 ∉ s'.log) : s'.stk t1 = s.stk t1 ∧ s'.stk t2 = s.stk t2 ∧ s'.tasks k1 = some a1 ∧ s'.tasks k2 = some a2 := by
  have hi := inv h
  clear h
  induction bs generalizing s with
  | nil => cases h'; exact ⟨rfl, rfl, ha1, ha2⟩
  | cons a bs ih =>
    simp only [run, Option.bind_eq_some_iff] at h'
    obtain ⟨s1, hs, hr⟩ := h'
    obtain ⟨es, he⟩ := log_grows hr
    rw [he] at hd
    obtain ⟨g1, g2, g3, g4⟩ := cross_step (step_move hs) hi h1 h2 hs1 hs2 ha1 ha2 hp1 hp2 hq1 hq2 (fun hm => hd.1 (List.mem_append_left _ hm)) (fun hm => hd.2 (List.mem_append_left _ hm))
    rw [← he] at hd
    have h3 := ih s1 (by rw [g1, hs1]) (by rw [g2, hs2]) g3 g4 hr (inv_move (step_move hs) hi)
    exact ⟨h3.1.trans g1, h3.2.1.trans g2, h3.2.2⟩

/-! Examples: thread 0 is nobody's; thread `t` runs processor `t`'s loop. Processors 1, 2 and 3 join and know message 5 (3 without a handler). -/

def hm (t : Tid) : Option Pid := if t = 0 then none else some t

def setup : List Act := [.setHandlers 1 5 .live, .setHandlers 2 5 .live, .setHandlers 3 5 .hollow, .use 0 (.join 2), .lock 0, .use 0 (.join 1), .lock 0, .use 0 (.join 3), .lock 0]

def sendAll (t : Tid) : List Act := [.use t (.send 5), .lock t, .ask t, .post t, .ask t, .post t, .ask t, .post t, .ask t]

/-- Thread 0 sends and gets; both handle it. -/
def whole : List Act := setup ++ sendAll 0 ++ [.get 0 0, .take 2 1, .finish 2 true, .take 1 0, .finish 1 true, .next 0, .next 0, .next 0]

example : (run hm init whole).map (fun s => s.log.drop 3) =
    some [.opened 0 0 5 [1, 2, 3], .made 0 1 0, .made 0 2 1, .refused 0 3, .sent 0 0 true, .began 2 1 2 5, .ended 2 1 true, .began 1 0 1 5, .ended 1 0 true, .got 0 0 true] := by decide +kernel

/-- The claim that `get` returns only when every handler that has been called is over, and every processor that took the message has got its turn, fails: processor 1's handler throws, and `get` throws while
processor 2's handler is still running. -/
theorem get_leaves_running : ∃ as s k t, run hm init as = some s ∧ Ev.got 0 0 false ∈ s.log ∧ Ev.sent 0 0 true ∈ s.log ∧ k ∈ tasksOf 0 s.log ∧ Frame.run k ∈ s.stk t :=
  ⟨setup ++ sendAll 0 ++ [.get 0 0, .take 2 1, .take 1 0, .finish 1 false, .next 0], _, 1, 2, rfl, by decide +kernel, by decide +kernel, by decide +kernel, by decide +kernel⟩

/-- Processor 1's own thread sends to all: its handler is called in `sendToAll`, and looks for a processor (`router_in_handler_forever`). -/
def lookInHandler : List Act := setup ++ [.use 1 (.send 5), .lock 1, .ask 1, .post 1, .use 1 .look]

example : ((run hm init lookInHandler).map fun s => (s.stk 1, s.owner)) = some ([.wants .look, .run 0, .sending 0 5 [2, 3] [0]], some 1) := by decide +kernel

/-- Processors 1 and 2 both send a message (6, 7) only the other one knows, and wait (`cross_wait_forever`). -/
def crossWait : List Act :=
  [.setHandlers 1 7 .live, .setHandlers 2 6 .live, .use 0 (.join 1), .lock 0, .use 0 (.join 2), .lock 0, .use 1 (.send 6), .lock 1, .ask 1, .ask 1, .post 1, .ask 1, .use 2 (.send 7), .lock 2, .ask 2, .post 2, .ask 2, .ask 2,
    .get 1 0, .get 2 1]

example : ((run hm init crossWait).map fun s => (s.stk 1, s.stk 2, s.tasks 0, s.tasks 1)) = some ([.get 0 [0]], [.get 1 [1]], some ⟨0, 2, 6, .queued⟩, some ⟨1, 1, 7, .queued⟩) := by decide +kernel

example (t : Tid) (p : Pid) (hp : p ≠ 0) (h : hm t = some p) : t = p := by unfold hm at h; split at h <;> cases h; rfl

end Maf.Bcast
