import Verif.Lemmas.MonitorAll
import Verif.Props.Timer

/-!
# C110: the thread that serves local IPC

Every message that comes in for a client or a server of the process is handled by one thread, which also looks every now
and then whether the servers of the clients are there.
-/

namespace Maf
namespace Mon
open Maf.Tmr (Tm Job Frame)

/-! ### What one can see -/

/-- The messages that came in, in order. -/
def came (l : List Ev) : List Work := l.filterMap fun e => match e with | .came w => some w | _ => none

/-- Those that were handled, or dropped since the server is gone, in order. -/
def dealt (l : List Ev) : List Work := l.filterMap fun e => match e with | .handled w => some w | .dropped w => some w | _ => none

/-- What client `i` knows of its server: what it saw last, where a server seen but not registered with does not count. -/
def known (i : Nat) (l : List Ev) : Bool :=
  l.foldl (fun b e => match e with | .checked j up ok _ => if j = i then (if up && !ok then b else up) else b | _ => b) false

/-- The interval client `i` chose last. -/
def last (i : Nat) (l : List Ev) : Nat := l.foldl (fun k e => match e with | .checked j _ _ k' => if j = i then k' else k | _ => k) 0

/-! ### Messages -/

def Work.isMsg : Work → Bool
  | .message _ _ => true
  | .server _ _ => true
  | _ => false

/-- What is being handled or waits. -/
def pending (s : State) : List Work := (s.cur.toList ++ s.works).filter Work.isMsg

def MsgI (s : State) : Prop := came s.log = dealt s.log ++ pending s

theorem MsgI_step {s s' : State} (h : MsgI s) (he : Eff s s') : MsgI s' := by
  unfold MsgI pending at *
  cases he with
  | start i _ hw hc hd hl => rw [hw, hc, hl, h]; simp [Work.isMsg]
  | arrive w hm hw hc hd hl =>
    rw [hw, hc, hl]
    have hm : w.isMsg = true := by rcases hm with ⟨i, m, rfl⟩ | ⟨i, m, rfl⟩ <;> rfl
    simp only [came, dealt, List.filterMap_append] at h ⊢
    simp [h, hm]
  | foreign i e he hw hc hd hl =>
    rw [hw, hc, hl]
    simp only [came, dealt, List.filterMap_append] at h ⊢
    rcases he with rfl | rfl <;> simp [h]
  | inner hw hc hd hl => rw [hw, hc, hl, h]
  | taken w hc0 hw hc hd hl => rw [hc, hl, h, hc0, hw]; simp
  | fired i hon hc0 hr hw hc hd hl => rw [hw, hc, hl, h, hc0]; simp [Work.isMsg]
  | looked i k up ok hc0 hw hc hd hl =>
    rw [hw, hc, hl]
    rw [hc0] at h
    simp only [came, dealt, List.filterMap_append] at h ⊢
    simp_all [Work.isMsg]
  | done w e hm he hc0 hw hc hd hl =>
    rw [hw, hc, hl]
    rw [hc0] at h
    have hm : w.isMsg = true := by rcases hm with ⟨i, m, rfl⟩ | ⟨i, m, rfl⟩ <;> rfl
    simp only [came, dealt, List.filterMap_append] at h ⊢
    rcases he with rfl | rfl <;> simp_all [Work.isMsg]
  | ret hc0 hw hc hd hl => rw [hw, hc, hl, h, hc0]; simp [Work.isMsg]

theorem inv_run {P : State → Prop} (h0 : P init) (hP : ∀ s s', J s → P s → Eff s s' → P s') {as : List Act} {s : State} (hr : run init as = some s) : J s ∧ P s := by
  have key : ∀ (as : List Act) (s s' : State), J s → P s → run s as = some s' → J s' ∧ P s' := by
    intro as
    induction as with
    | nil => intro s s' hj hp hr; cases hr; exact ⟨hj, hp⟩
    | cons a as ih =>
      intro s s' hj hp hr
      cases hst : step s a with
      | none => simp [run, hst] at hr
      | some s1 =>
        simp only [run, hst, Option.bind_some] at hr
        have k := J_step hj hst
        exact ih s1 s' k.1 (hP _ _ hj hp k.2) hr
  exact key as init s J_init h0 hr

/-- C110: in every run, whatever is stopped or destroyed, messages are handled (or dropped, for a server that is gone) in
the order in which they came in, each at most once; the others are being handled or wait. -/
theorem in_order {as : List Act} {s : State} (hr : run init as = some s) : came s.log = dealt s.log ++ pending s :=
  (inv_run (P := MsgI) rfl (fun _ _ _ h e => MsgI_step h e) hr).2

/-! ### Intervals -/

/-- Every look has the interval that follows from what was seen before. -/
def EvOk (l : List Ev) : Ev → Prop
  | .checked i up _ k => k = if known i l ≠ up then 500 else min 500 (last i l + 5)
  | _ => True

structure IntI (s : State) : Prop where
  status : ∀ i, s.status i = known i s.log
  tuned : ∀ i, s.tuned i = last i s.log
  works : ∀ i k, .monitor i k ∈ s.works → k = last i s.log
  cur : ∀ i k, s.cur = some (.monitor i k) → k = last i s.log
  tok : ∀ i, tok s i ≤ if s.started i then 1 else 0
  fresh : ∀ i, s.started i = false → last i s.log = 0
  le : ∀ i, last i s.log ≤ 500 ∧ last i s.log % 5 = 0
  hist : ∀ l1 e l2, s.log = l1 ++ e :: l2 → EvOk l1 e

theorem known_append (i : Nat) (l : List Ev) (e : Ev) : known i (l ++ [e]) = match e with | .checked j up ok _ => if j = i then (if up && !ok then known i l else up) else known i l | _ => known i l := by
  simp only [known, List.foldl_append, List.foldl_cons, List.foldl_nil]

theorem last_append (i : Nat) (l : List Ev) (e : Ev) : last i (l ++ [e]) = match e with | .checked j _ _ k => if j = i then k else last i l | _ => last i l := by
  simp only [last, List.foldl_append, List.foldl_cons, List.foldl_nil]

theorem hist_append {l : List Ev} {e : Ev} (h : ∀ l1 e l2, l = l1 ++ e :: l2 → EvOk l1 e) (he : EvOk l e) : ∀ l1 e' l2, l ++ [e] = l1 ++ e' :: l2 → EvOk l1 e' := by
  intro l1 e' l2 hl
  rcases List.eq_nil_or_concat l2 with rfl | ⟨l3, x, rfl⟩
  · have := List.append_inj' hl rfl
    obtain ⟨rfl, h2⟩ := this
    cases h2
    exact he
  · rw [List.concat_eq_append, ← List.cons_append, ← List.append_assoc] at hl
    exact h _ _ _ (List.append_inj' hl rfl).1

theorem IntI_same {s s' : State} (h : IntI s) (hl : ∀ i, known i s'.log = known i s.log ∧ last i s'.log = last i s.log) (hh : ∀ l1 e l2, s'.log = l1 ++ e :: l2 → EvOk l1 e)
    (hs : s'.status = s.status) (ht : s'.tuned = s.tuned) (hw : ∀ i k, .monitor i k ∈ s'.works → k = last i s.log) (hc : ∀ i k, s'.cur = some (.monitor i k) → k = last i s.log)
    (htok : ∀ i, Mon.tok s' i ≤ if s'.started i then 1 else 0) (hst : ∀ i, s'.started i = false → s.started i = false) : IntI s' :=
  ⟨fun i => by rw [hs, (hl i).1]; exact h.status i, fun i => by rw [ht, (hl i).2]; exact h.tuned i, fun i k => by rw [(hl i).2]; exact hw i k,
    fun i k => by rw [(hl i).2]; exact hc i k, htok, fun i hi => by rw [(hl i).2]; exact h.fresh i (hst i hi), fun i => by rw [(hl i).2]; exact h.le i, hh⟩

theorem tok_eq (s : State) (i : Nat) : Mon.tok s i = s.works.countP (Work.isMon i) + s.cur.toList.countP (Work.isMon i) + (if (s.t.data i).running then 1 else 0) := rfl

theorem countP_one (i : Nat) (w : Work) : [w].countP (Work.isMon i) = if w.isMon i then 1 else 0 := by simp [List.countP_cons]

theorem IntI_step {s s' : State} (h : IntI s) (he : Eff s s') : IntI s' := by
  have plain : ∀ e, (∀ i up ok k, e ≠ .checked i up ok k) → (∀ i, known i (s.log ++ [e]) = known i s.log ∧ last i (s.log ++ [e]) = last i s.log) ∧
      ∀ l1 e' l2, s.log ++ [e] = l1 ++ e' :: l2 → EvOk l1 e' := by
    intro e he
    refine ⟨fun i => ?_, hist_append h.hist ?_⟩
    · rw [known_append, last_append]; cases e <;> first | exact ⟨rfl, rfl⟩ | exact absurd rfl (he _ _ _ _)
    · cases e <;> first | trivial | exact absurd rfl (he _ _ _ _)
  cases he with
  | start i h0 hw hc hd hl hs ht hst =>
    refine IntI_same h (fun _ => by rw [hl]; exact ⟨rfl, rfl⟩) (by rw [hl]; exact h.hist) hs ht ?_ (by rw [hc]; exact h.cur) ?_ ?_
    · intro j k hj
      rw [hw] at hj
      rcases List.mem_append.1 hj with hj | hj
      · exact h.works j k hj
      · simp only [List.mem_singleton, Work.monitor.injEq] at hj
        rw [hj.1, hj.2, h.fresh i h0]
    · intro j
      have hj := h.tok j
      rw [tok_eq] at hj
      rw [tok_eq, hw, hc, hd, hst, List.countP_append, countP_one]
      by_cases e : j = i
      · subst e
        rw [h0] at hj
        simp only [Tmr.upd, Work.isMon, beq_self_eq_true, if_true, Bool.false_eq_true, if_false] at hj ⊢
        omega
      · have hne : ¬ i = j := fun h => e h.symm
        rw [Tmr.upd_other e]
        simp only [Work.isMon, beq_iff_eq, hne, if_false, Nat.add_zero]
        exact hj
    · intro j hj
      rw [hst] at hj
      by_cases e : j = i
      · rw [e]; exact h0
      · rw [Tmr.upd_other e] at hj; exact hj
  | arrive w hm hw hc hd hl hs ht hst =>
    have hp := plain (.came w) (by simp)
    have hnm : ∀ i, w.isMon i = false := fun i => by rcases hm with ⟨i, m, rfl⟩ | ⟨i, m, rfl⟩ <;> rfl
    refine IntI_same h (by rw [hl]; exact hp.1) (by rw [hl]; exact hp.2) hs ht ?_ (by rw [hc]; exact h.cur) ?_ (by simp [hst])
    · intro j k hj
      rw [hw] at hj
      rcases List.mem_append.1 hj with hj | hj
      · exact h.works j k hj
      · rcases hm with ⟨i, m, rfl⟩ | ⟨i, m, rfl⟩ <;> simp at hj
    · intro j
      have hj := h.tok j
      rw [tok_eq] at hj
      rw [tok_eq, hw, hc, hd, hst, List.countP_append, countP_one, hnm]
      simpa using hj
  | foreign i e he hw hc hd hl hs ht hst =>
    have hp := plain e (by rcases he with rfl | rfl <;> simp)
    refine IntI_same h (by rw [hl]; exact hp.1) (by rw [hl]; exact hp.2) hs ht (by rw [hw]; exact h.works) (by rw [hc]; exact h.cur) ?_ (by simp [hst])
    intro j
    have hj := h.tok j
    rw [tok_eq] at hj
    rw [tok_eq, hw, hc, hd, hst]
    by_cases e : j = i
    · subst e
      simp only [Tmr.upd, if_true, Bool.false_eq_true, if_false]
      omega
    · rw [Tmr.upd_other e]; exact hj
  | inner hw hc hd hl hs ht hst =>
    refine IntI_same h (fun _ => by rw [hl]; exact ⟨rfl, rfl⟩) (by rw [hl]; exact h.hist) hs ht (by rw [hw]; exact h.works) (by rw [hc]; exact h.cur) ?_ (by simp [hst])
    intro j
    have hj := h.tok j
    rw [tok_eq] at hj
    rw [tok_eq, hw, hc, hd, hst]
    exact hj
  | taken w hc0 hw hc hd hl hs ht hst =>
    refine IntI_same h (fun _ => by rw [hl]; exact ⟨rfl, rfl⟩) (by rw [hl]; exact h.hist) hs ht (fun i k hi => h.works i k (by rw [hw]; simp [hi])) ?_ ?_ (by simp [hst])
    · intro i k hi
      rw [hc] at hi
      exact h.works i k (by rw [hw, Option.some.inj hi]; simp)
    · intro j
      have hj := h.tok j
      rw [tok_eq, hw, hc0, List.countP_cons] at hj
      rw [tok_eq, hc, hd, hst, Option.toList_some, countP_one]
      simp only [Option.toList_none, List.countP_nil] at hj
      omega
  | fired i hon hc0 hr hw hc hd hl hs ht hst =>
    refine IntI_same h (fun _ => by rw [hl]; exact ⟨rfl, rfl⟩) (by rw [hl]; exact h.hist) hs ht (by rw [hw]; exact h.works) ?_ ?_ (by simp [hst])
    · intro j k hj
      rw [hc] at hj
      cases hj
      exact h.tuned i
    · intro j
      have hj := h.tok j
      rw [tok_eq, hc0] at hj
      rw [tok_eq, hw, hc, hd, hst, Option.toList_some, countP_one]
      by_cases e : j = i
      · subst e
        rw [hr] at hj
        simp only [Tmr.upd, if_true, Bool.false_eq_true, if_false, Work.isMon, beq_self_eq_true, Option.toList_none, List.countP_nil] at hj ⊢
        omega
      · have hne : ¬ i = j := fun h => e h.symm
        rw [Tmr.upd_other e]
        simp only [Work.isMon, beq_iff_eq, hne, if_false, Nat.add_zero, Option.toList_none, List.countP_nil] at hj ⊢
        exact hj
  | looked i k up ok hc0 hw hc hd hl hs ht hst =>
    have hk := h.cur i k hc0
    have hti := h.tok i
    rw [tok_eq, hc0, Option.toList_some, countP_one] at hti
    simp only [Work.isMon, beq_self_eq_true, if_true] at hti
    have hsi : s.started i = true := by
      cases e : s.started i with
      | true => rfl
      | false => rw [e] at hti; simp at hti
    rw [hsi] at hti
    have hz : s.works.countP (Work.isMon i) = 0 := by simp only [if_true] at hti; omega
    have hnw : ∀ k', Work.monitor i k' ∉ s.works := fun k' hm => by
      have := (List.countP_eq_zero.1 hz) _ hm
      simp [Work.isMon] at this
    have hle := h.le i
    have hN : next (decide (s.status i ≠ up)) k = if known i s.log ≠ up then 500 else min 500 (last i s.log + 5) := by
      rw [hk, h.status]
      unfold next
      by_cases e : known i s.log ≠ up
      · simp [e]
      · rw [if_neg (by simpa using e), if_neg e]
        split <;> omega
    have hN' : next (decide (s.status i ≠ up)) k ≤ 500 ∧ next (decide (s.status i ≠ up)) k % 5 = 0 := by
      rw [hN]
      split <;> omega
    generalize next (decide (s.status i ≠ up)) k = N at *
    have hla : ∀ j, last j s'.log = if i = j then N else last j s.log := fun j => by rw [hl, last_append]
    have hne : ∀ {j}, ¬ j = i → ¬ i = j := fun h e => h e.symm
    constructor
    · intro j
      rw [hs, hl, known_append]
      by_cases e : j = i
      · subst e
        simp only [Tmr.upd, if_true, h.status]
      · rw [Tmr.upd_other e]
        simp only [hne e, if_false]
        exact h.status j
    · intro j
      rw [ht, hla]
      by_cases e : j = i
      · subst e
        simp only [Tmr.upd, if_true]
      · rw [Tmr.upd_other e, if_neg (hne e)]
        exact h.tuned j
    · intro j k' hj
      rw [hw] at hj
      by_cases e : j = i
      · subst e
        exact absurd hj (hnw k')
      · rw [hla, if_neg (hne e)]
        exact h.works j k' hj
    · intro j k' hj
      rw [hc] at hj
      cases hj
    · intro j
      have hj := h.tok j
      rw [tok_eq, hc0, Option.toList_some, countP_one] at hj
      rw [tok_eq, hw, hc, hd, hst, Option.toList_some, countP_one]
      by_cases e : j = i
      · subst e
        rw [hz, hsi]
        simp [Tmr.upd, Work.isMon]
      · rw [Tmr.upd_other e]
        simp only [Work.isMon, beq_iff_eq, hne e, if_false, Bool.false_eq_true] at hj ⊢
        exact hj
    · intro j hj
      rw [hst] at hj
      have : ¬ i = j := fun e => by rw [← e, hsi] at hj; cases hj
      rw [hla, if_neg this]
      exact h.fresh j hj
    · intro j
      rw [hla]
      split
      · exact hN'
      · exact h.le j
    · rw [hl]
      exact hist_append h.hist hN
  | done w e hm he hc0 hw hc hd hl hs ht hst =>
    have hp := plain e (by rcases he with rfl | rfl <;> simp)
    have hnm : ∀ i, w.isMon i = false := fun i => by rcases hm with ⟨i, m, rfl⟩ | ⟨i, m, rfl⟩ <;> rfl
    refine IntI_same h (by rw [hl]; exact hp.1) (by rw [hl]; exact hp.2) hs ht (by rw [hw]; exact h.works) (by rw [hc]; simp) ?_ (by simp [hst])
    intro j
    have hj := h.tok j
    rw [tok_eq, hc0, Option.toList_some, countP_one, hnm] at hj
    rw [tok_eq, hw, hc, hd, hst, Option.toList_some, countP_one]
    simpa [Work.isMon] using hj
  | ret hc0 hw hc hd hl hs ht hst =>
    refine IntI_same h (fun _ => by rw [hl]; exact ⟨rfl, rfl⟩) (by rw [hl]; exact h.hist) hs ht (by rw [hw]; exact h.works) (by rw [hc]; simp) ?_ (by simp [hst])
    intro j
    have hj := h.tok j
    rw [tok_eq, hc0, Option.toList_some, countP_one] at hj
    rw [tok_eq, hw, hc, hd, hst]
    simpa [Work.isMon] using hj

theorem IntI_init : IntI init := by
  constructor <;> simp [init, Tmr.init, known, last, tok]

/-- C110: in every run, the interval until a client's next look at its server is 500 milliseconds when the look found a
change, and otherwise 5 more than before, up to 500. -/
theorem intervals {as : List Act} {s : State} (hr : run init as = some s) {i : Nat} {up ok : Bool} {k : Nat} {l1 l2 : List Ev} (hl : s.log = l1 ++ .checked i up ok k :: l2) :
    k = if known i l1 ≠ up then 500 else min 500 (last i l1 + 5) :=
  (inv_run (P := IntI) IntI_init (fun _ _ _ h e => IntI_step h e) hr).2.hist _ _ _ hl

/-- C110: so it is between 5 and 500 milliseconds. -/
theorem interval_range {as : List Act} {s : State} (hr : run init as = some s) {i : Nat} {up ok : Bool} {k : Nat} (hl : .checked i up ok k ∈ s.log) : 5 ≤ k ∧ k ≤ 500 := by
  obtain ⟨l1, l2, hl⟩ := List.append_of_mem hl
  rw [intervals hr hl]
  split <;> omega

/-! ### Progress -/

theorem exists_min (data : Tm → Tmr.Data) : ∀ l : List Tm, l ≠ [] → ∃ m ∈ l, ∀ j ∈ l, (data m).deadline ≤ (data j).deadline
  | [x], _ => ⟨x, by simp, by simp⟩
  | x :: y :: l, _ => by
    obtain ⟨m, hm, h⟩ := exists_min data (y :: l) (by simp)
    by_cases e : (data x).deadline ≤ (data m).deadline
    · refine ⟨x, by simp, fun j hj => ?_⟩
      rcases List.mem_cons.1 hj with rfl | hj
      · exact Nat.le_refl _
      · exact Nat.le_trans e (h j hj)
    · refine ⟨m, by simp [hm], fun j hj => ?_⟩
      rcases List.mem_cons.1 hj with rfl | hj
      · exact Nat.le_of_lt (Nat.lt_of_not_le e)
      · exact h j hj

theorem exists_order (data : Tm → Tmr.Data) (ok : Bool) (l : List Tm) : ∃ r, Tmr.Order data ok l r := by
  cases l with
  | nil => exact ⟨[], List.Perm.refl _, by simp⟩
  | cons x l =>
    obtain ⟨m, hm, h⟩ := exists_min data (x :: l) (by simp)
    refine ⟨m :: (x :: l).erase m, (List.perm_cons_erase hm).symm, fun _ f hf j hj => ?_⟩
    cases hf
    exact h j ((List.perm_cons_erase hm).mem_iff.2 hj)

/-- Records that are due. -/
def due (s : State) : Nat := s.t.records.countP fun j => decide ((s.t.data j).deadline ≤ s.t.now)

theorem countP_less {p q : Tm → Bool} {i : Tm} (hp : p i = true) (hq : q i = false) (hpq : ∀ j, j ≠ i → q j = p j) : ∀ l : List Tm,
    l.countP q ≤ l.countP p ∧ (i ∈ l → l.countP q < l.countP p)
  | [] => by simp
  | x :: l => by
    have ih := countP_less hp hq hpq l
    rw [List.countP_cons, List.countP_cons]
    by_cases e : x = i
    · subst e
      rw [hp, hq]
      simp only [if_true, Bool.false_eq_true, if_false, List.mem_cons, true_or, forall_const]
      omega
    · rw [hpq x e]
      refine ⟨by omega, fun hm => ?_⟩
      rcases List.mem_cons.1 hm with hm | hm
      · exact absurd hm.symm e
      · have := ih.2 hm
        omega

theorem next_pos (c : Bool) (k : Nat) : 5 ≤ next c k := by unfold next; split <;> (try split) <;> omega

/-- A look at the server, up to the return. -/
theorem look_done {s : State} (h : I s) {i k : Nat} (hc : s.cur = some (.monitor i k)) (up ok : Bool) : ∃ r s', run s [.work up ok r, .ret] = some s' ∧ s'.cur = none ∧ s'.works = s.works ∧
    s'.t.now = s.t.now ∧ (∃ N, 5 ≤ N ∧ s'.log = s.log ++ [.checked i up ok N] ∧ s'.t.data = Tmr.upd s.t.data i { s.t.data i with deadline := s.t.now + N, duration := N, running := true }) ∧
    s'.t.records.Perm (s.t.records ++ [i]) ∧
    (s.t.stack = [.user, .check] → s'.t.stack = [.check]) := by
  obtain ⟨r, ho⟩ := exists_order (Tmr.upd s.t.data i { s.t.data i with deadline := s.t.now + next (decide (s.status i ≠ up)) k, duration := next (decide (s.status i ≠ up)) k, running := true })
    (s.t.heapOk && !s.t.records.contains i) (s.t.records ++ [i])
  have hw := (work_mon_iff (ok := ok) (s' := looked s i k up ok r) h hc).2 ⟨ho, rfl⟩
  have hI := I_work h hw
  have hsh := user_shape hI (w := .over) rfl
  have hper : (looked s i k up ok r).t.records.Perm (s.t.records ++ [i]) := ho.1
  have hstk : (looked s i k up ok r).t.stack = s.t.stack.map Frame.touch := rfl
  have hN : ∃ N, 5 ≤ N ∧ (looked s i k up ok r).log = s.log ++ [.checked i up ok N] ∧
      (looked s i k up ok r).t.data = Tmr.upd s.t.data i { s.t.data i with deadline := s.t.now + N, duration := N, running := true } := ⟨_, next_pos _ _, rfl, rfl⟩
  have hret : ∃ s', step (looked s i k up ok r) .ret = some s' ∧ s'.cur = none ∧ s'.works = s.works ∧ s'.t.now = s.t.now ∧ s'.t.data = (looked s i k up ok r).t.data ∧
      s'.log = (looked s i k up ok r).log ∧ s'.t.records = (looked s i k up ok r).t.records ∧ (s.t.stack = [.user, .check] → s'.t.stack = [.check]) := by
    rcases hsh with e | e | ⟨i', t, e⟩
    · exact ⟨_, (ret_iff hI).2 ⟨rfl, .inl ⟨e, rfl⟩⟩, rfl, rfl, rfl, rfl, rfl, rfl, fun e' => by rw [hstk, e'] at e; cases e⟩
    · exact ⟨_, (ret_iff hI).2 ⟨rfl, .inr (.inl ⟨e, rfl⟩)⟩, rfl, rfl, rfl, rfl, rfl, rfl, fun _ => rfl⟩
    · exact ⟨_, (ret_iff hI).2 ⟨rfl, .inr (.inr ⟨i', t, e, rfl⟩)⟩, rfl, rfl, rfl, rfl, rfl, rfl, fun e' => by rw [hstk, e'] at e; cases e⟩
  obtain ⟨s', h1, h2, h3, h4, h5, h6, h7, h8⟩ := hret
  refine ⟨r, s', by simp [run, hw, h1], h2, h3, h4, ?_, by rw [h7]; exact hper, h8⟩
  obtain ⟨N, n1, n2, n3⟩ := hN
  exact ⟨N, n1, by rw [h6, n2], by rw [h5, n3]⟩

/-- A due timer fires, and its client looks at its server. -/
theorem expire {s : State} (h : I s) {i : Nat} {tch : Bool} (hst : s.t.stack = [.waited i tch]) (hd : (s.t.data i).deadline ≤ s.t.now) (up ok : Bool) :
    ∃ as s', (∀ a ∈ as, a.own = true) ∧ run s as = some s' ∧ s'.cur = none ∧ s'.works = s.works ∧ s'.t.now = s.t.now ∧ due s' < due s ∧ ∃ N, s'.log = s.log ++ [.checked i up ok N] := by
  have hi : i ∈ s.t.records := h.front i (by simp [On, hst])
  cases hrec : s.t.records with
  | nil => rw [hrec] at hi; simp at hi
  | cons f rest =>
    obtain ⟨r, ho⟩ := exists_order (Tmr.upd s.t.data i { s.t.data i with running := false }) s.t.heapOk rest
    have hf := (fire_iff (s' := fired s i r tch) h hst).2 (.inr ⟨hd, ⟨f, rest, hrec, ho⟩, rfl⟩)
    have hI := I_fire h hf
    obtain ⟨r', s', h1, h2, h3, h4, ⟨N, n1, n2, n3⟩, h6, h7⟩ := look_done hI (i := i) (k := s.tuned i) rfl up ok
    refine ⟨[.fire r, .work up ok r', .ret], s', by simp [Act.own], by simpa [run, hf] using h1, h2, h3, ?_, ?_, N, n2⟩
    · rw [h4]; exact (noteEmpty_same _).2.2.2.2.2.2.1
    · have hnow : s'.t.now = s.t.now := by rw [h4]; exact (noteEmpty_same _).2.2.2.2.2.2.1
      have hrecs : (fired s i r tch).t.records = r := (noteEmpty_same _).2.2.1
      have hdata : (fired s i r tch).t.data = Tmr.upd s.t.data i { s.t.data i with running := false } := (noteEmpty_same _).2.1
      have hnow' : (fired s i r tch).t.now = s.t.now := (noteEmpty_same _).2.2.2.2.2.2.1
      rw [hrecs] at h6
      rw [hdata, hnow'] at n3
      unfold due
      rw [h6.countP_eq, hnow, hrec, List.countP_append]
      have hq : ∀ j, j ≠ i → (s'.t.data j).deadline = (s.t.data j).deadline := fun j hj => by rw [n3, Tmr.upd_other hj, Tmr.upd_other hj]
      have hqi : ¬ (s'.t.data i).deadline ≤ s.t.now := by
        rw [n3]; simp only [Tmr.upd, if_true]; omega
      have k := countP_less (p := fun j => decide ((s.t.data j).deadline ≤ s.t.now)) (q := fun j => decide ((s'.t.data j).deadline ≤ s.t.now)) (i := i) (by simpa using hd)
        (by simpa using Nat.lt_of_not_le hqi) (fun j hj => by simp [hq j hj])
      have e1 : [i].countP (fun j => decide ((s'.t.data j).deadline ≤ s.t.now)) = 0 := by simp [List.countP_cons, hqi]
      rw [ho.1.countP_eq, e1, Nat.add_zero, List.countP_cons]
      have k1 := (k rest).1
      by_cases e : f = i
      · subst e
        simp only [hd, decide_true, if_true]
        omega
      · have : i ∈ rest := by
          rw [hrec] at hi
          rcases List.mem_cons.1 hi with hi | hi
          · exact absurd hi.symm e
          · exact hi
        have := (k rest).2 this
        omega

theorem own_quiet {a : Act} (h : a.own = true) : Quiet a := by
  constructor <;> intro i e <;> subst e <;> cases h

/-- The thread has nothing to do until a timer is due. -/
def Rest (s : State) : Prop := s.cur = none ∧ s.t.jobs = [] ∧ (s.t.stack = [] ∨ ∃ i dl, s.t.stack = [.waiting i dl] ∧ s.t.now < dl)

/-- The looks in `b` have the answers `ans`. -/
def Answers (ans : Nat → Bool × Bool) (b : List Ev) : Prop := ∀ i up ok N, .checked i up ok N ∈ b → ans i = (up, ok)

/-- From `s`, the thread alone can get to `s'`. -/
def Goes (ans : Nat → Bool × Bool) (s s' : State) : Prop :=
  ∃ as b, (∀ a ∈ as, a.own = true) ∧ run s as = some s' ∧ s'.t.now = s.t.now ∧ s'.log = s.log ++ b ∧ Answers ans b

theorem Goes.I {ans : Nat → Bool × Bool} {s s' : State} (h : Goes ans s s') (hI : Mon.I s) : Mon.I s' := by
  obtain ⟨as, b, h1, h2, -⟩ := h
  exact I_run hI (fun a ha => own_quiet (h1 a ha)) h2

theorem Goes.trans {ans : Nat → Bool × Bool} {s s1 s2 : State} (h : Goes ans s s1) (h' : Goes ans s1 s2) : Goes ans s s2 := by
  obtain ⟨as, b, h1, h2, h3, h4, h5⟩ := h
  obtain ⟨as', b', h1', h2', h3', h4', h5'⟩ := h'
  refine ⟨as ++ as', b ++ b', ?_, by rw [run_append, h2]; exact h2', by rw [h3', h3], by rw [h4', h4, List.append_assoc], ?_⟩
  · intro a ha
    rcases List.mem_append.1 ha with ha | ha
    · exact h1 a ha
    · exact h1' a ha
  · intro i up ok N hm
    rcases List.mem_append.1 hm with hm | hm
    · exact h5 i up ok N hm
    · exact h5' i up ok N hm

theorem Goes.one {ans : Nat → Bool × Bool} {s s' : State} {a : Act} (ha : a.own = true) (hs : step s a = some s') (hn : s'.t.now = s.t.now) (hl : s'.log = s.log) : Goes ans s s' :=
  ⟨[a], [], by simpa using ha, by simp [run, hs], hn, by simp [hl], fun _ _ _ _ h => by cases h⟩

theorem expire' {ans : Nat → Bool × Bool} {s : State} (h : I s) {i : Nat} {tch : Bool} (hst : s.t.stack = [.waited i tch]) (hd : (s.t.data i).deadline ≤ s.t.now) :
    ∃ s', Goes ans s s' ∧ s'.cur = none ∧ s'.works = s.works ∧ due s' < due s := by
  obtain ⟨as, s', h1, h2, h3, h4, h5, h6, N, h7⟩ := expire h hst hd (ans i).1 (ans i).2
  refine ⟨s', ⟨as, _, h1, h2, h5, h7, ?_⟩, h3, h4, h6⟩
  intro j up ok N' hm
  simp only [List.mem_singleton, Ev.checked.injEq] at hm
  obtain ⟨rfl, rfl, rfl, -⟩ := hm
  rfl

/-- What is left to do, in order of weight: functions, due timers, jobs, the phase of the loop. -/
def load (s : State) : Nat := s.works.length + (if s.cur.isSome then 1 else 0)

def phase (s : State) : Nat :=
  match s.t.stack with
  | [.waited _ _] => 2
  | [.check] => 1
  | _ => 0

def Less (s' s : State) : Prop :=
  load s' < load s ∨ (load s' = load s ∧ (due s' < due s ∨ (due s' = due s ∧ (s'.t.jobs.length < s.t.jobs.length ∨ (s'.t.jobs.length = s.t.jobs.length ∧ phase s' < phase s)))))

/-- The end of the function being executed. -/
theorem finish {ans : Nat → Bool × Bool} {s : State} (h : I s) {w : Work} (hc : s.cur = some w) : ∃ s', Goes ans s s' ∧ s'.cur = none ∧ s'.works = s.works := by
  have hret : ∀ {s : State}, I s → s.cur = some .over → ∃ s', Goes ans s s' ∧ s'.cur = none ∧ s'.works = s.works := by
    intro s h hc
    rcases user_shape h hc with e | e | ⟨i, t, e⟩
    · exact ⟨_, .one (a := .ret) rfl ((ret_iff h).2 ⟨hc, .inl ⟨e, rfl⟩⟩) rfl rfl, rfl, rfl⟩
    · exact ⟨_, .one (a := .ret) rfl ((ret_iff h).2 ⟨hc, .inr (.inl ⟨e, rfl⟩)⟩) rfl rfl, rfl, rfl⟩
    · exact ⟨_, .one (a := .ret) rfl ((ret_iff h).2 ⟨hc, .inr (.inr ⟨i, t, e, rfl⟩)⟩) rfl rfl, rfl, rfl⟩
  have hmsg : ∀ (e : Ev), (∀ i up ok k, e ≠ .checked i up ok k) → (∀ i, w.isMon i = false) → step s (.work true true []) = some (handled s e) →
      ∃ s', Goes ans s s' ∧ s'.cur = none ∧ s'.works = s.works := by
    intro e he hw hs
    obtain ⟨s', g, h1, h2⟩ := hret (I_handled (e := e) h hc hw) rfl
    refine ⟨s', Goes.trans (s1 := handled s e) ⟨[.work true true []], [e], by simp [Act.own], by simp [run, hs], rfl, rfl, ?_⟩ g, h1, h2⟩
    intro i up ok N hm
    simp only [List.mem_singleton] at hm
    exact absurd hm.symm (he _ _ _ _)
  cases w with
  | over => exact hret h hc
  | message i m => exact hmsg _ (by simp) (fun _ => rfl) (work_msg h hc)
  | server i m =>
    refine hmsg (if s.srvGone i then .dropped (.server i m) else .handled (.server i m)) ?_ (fun _ => rfl) (work_srv h hc)
    intro i up ok k
    split <;> simp
  | monitor i k =>
    obtain ⟨r, s', h1, h2, h3, h4, ⟨N, -, n2, -⟩, -⟩ := look_done h hc (ans i).1 (ans i).2
    refine ⟨s', ⟨_, _, ?_, h1, h4, n2, ?_⟩, h2, h3⟩
    · simp [Act.own]
    · intro j up ok N' hm
      simp only [List.mem_singleton, Ev.checked.injEq] at hm
      obtain ⟨rfl, rfl, rfl, -⟩ := hm
      rfl

theorem taken_some {s : State} (h : I s) {j : Job} {js : List Job} (hj : s.t.jobs = j :: js) (t : Tmr.State) : ∃ s', taken s j t = some s' ∧ s'.t = t ∧ s'.log = s.log ∧
    (s.cur = none → load s' = load s) := by
  cases j with
  | user =>
    have hu := h.users
    rw [hj] at hu
    cases hw : s.works with
    | nil => rw [hw] at hu; simp at hu
    | cons w ws => exact ⟨{ s with t := t, works := ws, cur := some w }, by simp only [taken, hw], rfl, rfl, fun hc => by simp [load, hw, hc]⟩
  | check => exact ⟨_, rfl, rfl, rfl, fun hc => by simp [load]⟩
  | wake => exact ⟨_, rfl, rfl, rfl, fun hc => by simp [load]⟩

theorem begin_more (t : Tmr.State) (fs : List Frame) (j : Job) : (Tmr.begin t fs j).records = t.records ∧ (Tmr.begin t fs j).jobs = t.jobs ∧ (Tmr.begin t fs j).now = t.now := by
  have hret : ∀ t : Tmr.State, (Tmr.ret t fs).records = t.records ∧ (Tmr.ret t fs).jobs = t.jobs ∧ (Tmr.ret t fs).now = t.now := by
    intro t; unfold Tmr.ret; split <;> exact ⟨rfl, rfl, rfl⟩
  cases j with
  | user => exact ⟨rfl, rfl, rfl⟩
  | check =>
    unfold Tmr.begin
    dsimp only
    split
    · exact hret t
    · exact ⟨rfl, rfl, rfl⟩
  | wake => exact hret t

theorem advance {ans : Nat → Bool × Bool} {s : State} (h : I s) (hr : ¬ Rest s) : ∃ s', Goes ans s s' ∧ Less s' s := by
  cases hc : s.cur with
  | some w =>
    obtain ⟨s', g, h1, h2⟩ := finish (ans := ans) h hc
    exact ⟨s', g, .inl (by simp [load, h1, h2, hc])⟩
  | none =>
    have job : ∀ {j js fs} {a : Act}, a.own = true → s.t.jobs = j :: js → (∀ s', taken s j (Tmr.begin { s.t with jobs := js } fs j) = some s' → step s a = some s') → ∃ s', Goes ans s s' ∧ Less s' s := by
      intro j js fs a ha hj hs
      obtain ⟨s', h1, h2, h3, h4⟩ := taken_some h hj (Tmr.begin { s.t with jobs := js } fs j)
      have hb := begin_same { s.t with jobs := js } fs j
      have hm := begin_more { s.t with jobs := js } fs j
      refine ⟨s', .one ha (hs s' h1) (by rw [h2, hm.2.2]) h3, .inr ⟨h4 hc, .inr ⟨?_, .inl ?_⟩⟩⟩
      · unfold due; rw [h2, hb.1, hm.1, hm.2.2]
      · rw [h2, hm.2.1, hj]; simp
    have hlt : ∀ {s1 s2 : State} {i : Nat}, Goes ans s s1 → s1.works = s.works → s1.cur = none → due s1 = due s → (∃ tch, s1.t.stack = [.waited i tch]) → (s1.t.data i).deadline ≤ s1.t.now →
        ∃ s', Goes ans s s' ∧ Less s' s := by
      intro s1 _ i g hw hc1 hdu ⟨tch, hst⟩ hd
      obtain ⟨s', g', h1, h2, h3⟩ := expire' (ans := ans) (g.I h) hst hd
      refine ⟨s', g.trans g', .inr ⟨by simp [load, h1, h2, hw, hc], .inl (by omega)⟩⟩
    rcases h.shape with ⟨_, e | e | ⟨i, dl, e⟩ | ⟨i, t, e⟩⟩ | ⟨⟨w, e⟩, _⟩
    · cases hj : s.t.jobs with
      | nil => exact absurd ⟨hc, hj, .inl e⟩ hr
      | cons j js =>
        refine job (a := .take) (fs := []) rfl hj fun s' hs => ?_
        simp only [step, h.ub, hc, hj, Tmr.step, h.tub, h.opened, e]
        simpa [h.tub, h.opened, e] using hs
    · cases hrec : s.t.records with
      | nil =>
        refine ⟨{ s with t := { s.t with stack := [] } }, .one (a := .look) rfl (by simp [step, h.ub, Tmr.step, h.tub, e, hrec, Tmr.ret]) rfl rfl, .inr ⟨rfl, .inr ⟨rfl, .inr ⟨rfl, ?_⟩⟩⟩⟩
        simp [phase, e]
      | cons i rest =>
        by_cases hd : (s.t.data i).deadline ≤ s.t.now
        · exact hlt (s1 := { s with t := { s.t with stack := [.waited i false], log := s.t.log ++ [.picked i] } }) (s2 := s) (i := i)
            (.one (a := .look) rfl (by simp [step, h.ub, Tmr.step, h.tub, e, hrec, hd]) rfl rfl) rfl hc rfl ⟨false, rfl⟩ hd
        · refine ⟨{ s with t := { s.t with stack := [.waiting i (s.t.data i).deadline], st := .waiting, log := s.t.log ++ [.picked i] } },
            .one (a := .look) rfl (by simp [step, h.ub, Tmr.step, h.tub, e, hrec, hd]) rfl rfl, .inr ⟨rfl, .inr ⟨rfl, .inr ⟨rfl, ?_⟩⟩⟩⟩
          simp [phase, e]
    · cases hj : s.t.jobs with
      | nil =>
        have hdl : dl ≤ s.t.now := Nat.le_of_not_lt fun hlt => hr ⟨hc, hj, .inr ⟨i, dl, e, hlt⟩⟩
        exact hlt (s1 := { s with t := { s.t with stack := [.waited i false], st := .haveTimer } }) (s2 := s) (i := i)
          (.one (a := .waitOut) rfl (by simp [step, h.ub, Tmr.step, h.tub, e, hj, hdl]) rfl rfl) rfl hc rfl ⟨false, rfl⟩ (by rw [← h.wait i dl e] at hdl; exact hdl)
      | cons j js =>
        refine job (a := .waitJob) (fs := [.held i false]) rfl hj fun s' hs => ?_
        simp only [step, h.ub, hj, Tmr.step, h.tub, h.opened, e]
        simpa [h.tub, h.opened, e] using hs
    · by_cases hd : (s.t.data i).deadline ≤ s.t.now
      · obtain ⟨s', g', h1, h2, h3⟩ := expire' (ans := ans) h e hd
        exact ⟨s', g', .inr ⟨by simp [load, h1, h2, hc], .inl h3⟩⟩
      · refine ⟨_, .one (a := .fire []) rfl ((fire_iff h e).2 (.inl ⟨by omega, rfl⟩)) rfl rfl, .inr ⟨rfl, .inr ⟨rfl, .inr ⟨rfl, ?_⟩⟩⟩⟩
        simp [phase, e]
    · rw [hc] at e; cases e

theorem drain {ans : Nat → Bool × Bool} : ∀ (u d l p : Nat) {s : State}, I s → load s = u → due s = d → s.t.jobs.length = l → phase s = p → ∃ s', Goes ans s s' ∧ Rest s' := by
  intro u
  induction u using Nat.strongRecOn with
  | ind u ihu =>
    intro d
    induction d using Nat.strongRecOn with
    | ind d ihd =>
      intro l
      induction l using Nat.strongRecOn with
      | ind l ihl =>
        intro p
        induction p using Nat.strongRecOn with
        | ind p ihp =>
          intro s h hu hd hl hp
          by_cases hr : Rest s
          · exact ⟨s, ⟨[], [], by simp, rfl, rfl, by simp, fun _ _ _ _ h => by cases h⟩, hr⟩
          · obtain ⟨s1, g, hlt⟩ := advance (ans := ans) h hr
            have : ∃ s', Goes ans s1 s' ∧ Rest s' := by
              rcases hlt with k | ⟨k1, k | ⟨k2, k | ⟨k3, k⟩⟩⟩
              · exact ihu _ (hu ▸ k) _ _ _ (g.I h) rfl rfl rfl rfl
              · exact ihd _ (hd ▸ k) _ _ (g.I h) (by omega) rfl rfl rfl
              · exact ihl _ (hl ▸ k) _ (g.I h) (by omega) (by omega) rfl rfl
              · exact ihp _ (hp ▸ k) (g.I h) (by omega) (by omega) (by omega) rfl
            obtain ⟨s', g', hr'⟩ := this
            exact ⟨s', g.trans g', hr'⟩

theorem rest_done {s : State} (h : I s) (hr : Rest s) : s.works = [] := by
  have := h.users
  rw [hr.2.1] at this
  exact List.eq_nil_of_length_eq_zero this.symm

theorem own_came {s s' : State} {a : Act} (ha : a.own = true) (hs : step s a = some s') : came s'.log = came s.log := by
  have htk : ∀ {j : Job} {t : Tmr.State}, taken s j t = some s' → s'.log = s.log := by
    intro j t h
    unfold taken at h
    split at h
    · split at h <;> cases h; rfl
    · cases h; rfl
  unfold step at hs
  split at hs
  · cases hs
  · cases a <;> dsimp only at hs <;> try (cases ha; done)
    · split at hs
      · cases hs
      · split at hs
        · obtain ⟨_, _, hs⟩ := Option.bind_eq_some_iff.1 hs
          rw [htk hs]
        · cases hs
    · split at hs
      · obtain ⟨_, _, hs⟩ := Option.bind_eq_some_iff.1 hs
        rw [htk hs]
      · cases hs
    · obtain ⟨_, _, rfl⟩ := Option.map_eq_some_iff.1 hs; rfl
    · obtain ⟨_, _, rfl⟩ := Option.map_eq_some_iff.1 hs; rfl
    · split at hs
      · obtain ⟨_, _, rfl⟩ := Option.map_eq_some_iff.1 hs
        split <;> rfl
      · cases hs
    · unfold perform at hs
      split at hs
      · split at hs
        · cases hs; rfl
        · obtain ⟨_, _, rfl⟩ := Option.map_eq_some_iff.1 hs
          simp [came]
      · split at hs
        · cases hs; rfl
        · cases hs; simp [came]
      · split at hs
        · cases hs; simp [came]
        · cases hs; simp [came]
      · cases hs
    · split at hs
      · obtain ⟨_, _, rfl⟩ := Option.map_eq_some_iff.1 hs; rfl
      · cases hs

/-- C110 (as long as no client is stopped or destroyed): nothing undefined happens, and at any point, whatever the looks at
the servers tell from then on, the thread alone can go on, without time passing, until every message that has come in is
handled (or dropped, since the server is gone). -/
theorem all_handled_partial {as : List Act} {s : State} (hr : run init as = some s) (hq : ∀ a ∈ as, Quiet a) (ans : Nat → Bool × Bool) :
    s.ub = false ∧ s.t.ub = false ∧ ∃ as' s', (∀ a ∈ as', a.own = true) ∧ run s as' = some s' ∧ s'.t.now = s.t.now ∧ dealt s'.log = came s.log ∧
      ∃ b, s'.log = s.log ++ b ∧ Answers ans b := by
  have h := I_run I_init hq hr
  obtain ⟨s', ⟨as', b, g1, g2, g3, g4, g5⟩, hrest⟩ := drain (ans := ans) _ _ _ _ h rfl rfl rfl rfl
  refine ⟨h.ub, h.tub, as', s', g1, g2, g3, ?_, b, g4, g5⟩
  have hI := I_run h (fun a ha => own_quiet (g1 a ha)) g2
  have k := in_order (as := as ++ as') (s := s') (by rw [run_append, hr]; exact g2)
  rw [show pending s' = [] by simp [pending, hrest.1, rest_done hI hrest], List.append_nil] at k
  rw [← k, g4]
  have hno : ∀ (as' : List Act) (s s' : State), J s → (∀ a ∈ as', a.own = true) → run s as' = some s' → came s'.log = came s.log := by
    intro as'
    induction as' with
    | nil => intro s s' _ _ hr; cases hr; rfl
    | cons a as' ih =>
      intro s s' hj ho hr
      cases hst : step s a with
      | none => simp [run, hst] at hr
      | some s1 =>
        simp only [run, hst, Option.bind_some] at hr
        have k := J_step hj hst
        rw [ih s1 s' k.1 (fun a' ha => ho a' (by simp [ha])) hr]
        exact own_came (ho a (by simp)) hst
  rw [← g4]
  exact hno as' s s' (inv_run (P := MsgI) rfl (fun _ _ _ h e => MsgI_step h e) hr).1 g1 g2

/-! ### Looks -/

/-- What the thread's timer manager is asked to do. -/
def Plain : Tmr.Act → Bool
  | .stopProc => false
  | .reuse => false
  | .op (.start _ _) _ => true
  | .op _ _ => false
  | _ => true

theorem timer_step {s s' : State} {a : Act} (h : I s) (hq : Quiet a) (hs : step s a = some s') : s'.t = s.t ∨ ∃ b, Plain b = true ∧ Tmr.step s.t b = some s'.t := by
  have hpost : ∀ w, (submit s w).t = Tmr.push s.t .user := fun _ => rfl
  have hp : Tmr.step s.t .post = some (Tmr.push s.t .user) := by simp [Tmr.step, h.tub]
  have htk : ∀ {j : Job} {t : Tmr.State}, taken s j t = some s' → s'.t = t := by
    intro j t h
    unfold taken at h
    split at h
    · split at h <;> cases h; rfl
    · cases h; rfl
  unfold step at hs
  rw [if_neg (by simp [h.ub])] at hs
  cases a with
  | start i =>
    dsimp only at hs
    split at hs
    · cases hs
    · cases hs; exact .inr ⟨.post, rfl, hp⟩
  | arrive w => cases w <;> cases hs <;> exact .inr ⟨.post, rfl, hp⟩
  | stop i => exact absurd rfl (hq.1 i)
  | destroy i => exact absurd rfl (hq.2 i)
  | destroySrv i => cases hs; exact .inl rfl
  | tick n => obtain ⟨t, ht, rfl⟩ := Option.map_eq_some_iff.1 hs; exact .inr ⟨_, rfl, ht⟩
  | take =>
    dsimp only at hs
    split at hs
    · cases hs
    · split at hs
      · obtain ⟨t, ht, hs⟩ := Option.bind_eq_some_iff.1 hs
        exact .inr ⟨_, rfl, by rw [htk hs]; exact ht⟩
      · cases hs
  | waitJob =>
    dsimp only at hs
    split at hs
    · obtain ⟨t, ht, hs⟩ := Option.bind_eq_some_iff.1 hs
      exact .inr ⟨_, rfl, by rw [htk hs]; exact ht⟩
    · cases hs
  | look => obtain ⟨t, ht, rfl⟩ := Option.map_eq_some_iff.1 hs; exact .inr ⟨_, rfl, ht⟩
  | waitOut => obtain ⟨t, ht, rfl⟩ := Option.map_eq_some_iff.1 hs; exact .inr ⟨_, rfl, ht⟩
  | fire r =>
    dsimp only at hs
    split at hs
    · obtain ⟨t, ht, rfl⟩ := Option.map_eq_some_iff.1 hs
      refine .inr ⟨.fire r, rfl, ?_⟩
      rw [ht]
      split <;> rfl
    · cases hs
  | work up ok r =>
    dsimp only at hs
    unfold perform at hs
    split at hs
    · split at hs
      · cases hs; exact .inl rfl
      · obtain ⟨t, ht, rfl⟩ := Option.map_eq_some_iff.1 hs; exact .inr ⟨_, by rfl, ht⟩
    · split at hs <;> cases hs <;> exact .inl rfl
    · split at hs <;> cases hs <;> exact .inl rfl
    · cases hs
  | ret =>
    dsimp only at hs
    split at hs
    · obtain ⟨t, ht, rfl⟩ := Option.map_eq_some_iff.1 hs; exact .inr ⟨_, rfl, ht⟩
    · cases hs

theorem tmr_snoc {as : List Tmr.Act} {a : Tmr.Act} : ∀ {s s1 s2 : Tmr.State}, Tmr.run s as = some s1 → Tmr.step s1 a = some s2 → Tmr.run s (as ++ [a]) = some s2 := by
  induction as with
  | nil => intro s s1 s2 h h'; cases h; simp [Tmr.run, h']
  | cons b as ih =>
    intro s s1 s2 h h'
    simp only [Tmr.run, List.cons_append] at h ⊢
    cases hb : Tmr.step s b with
    | none => rw [hb] at h; cases h
    | some s3 => rw [hb] at h; exact ih h h'

/-- Events of other uses of timers. -/
def Odd : Tmr.Ev → Bool
  | .restarted _ _ => true
  | .procStopped => true
  | _ => false

theorem plain_log {t t' : Tmr.State} {b : Tmr.Act} (hp : Plain b = true) (hs : Tmr.step t b = some t') (h : ∀ e ∈ t.log, Odd e = false) : ∀ e ∈ t'.log, Odd e = false := by
  have push : ∀ (t : Tmr.State) j, (Tmr.push t j).log = t.log := fun t j => by unfold Tmr.push; split <;> rfl
  have ret : ∀ (t : Tmr.State) fs, (Tmr.ret t fs).log = t.log := fun t fs => by unfold Tmr.ret; split <;> rfl
  have beg : ∀ (t : Tmr.State) fs j, (Tmr.begin t fs j).log = t.log := fun t fs j => by
    cases j with
    | user => rfl
    | check => unfold Tmr.begin; dsimp only; split
               · exact ret _ _
               · rfl
    | wake => exact ret _ _
  have add : ∀ {l : List Tmr.Ev}, (∀ e ∈ l, Odd e = false) → ∀ e ∈ t.log ++ l, Odd e = false := by
    intro l hl e he
    rcases List.mem_append.1 he with he | he
    · exact h e he
    · exact hl e he
  unfold Tmr.step at hs
  split at hs
  · cases hs
  · cases b with
    | stopProc => cases hp
    | reuse => cases hp
    | tick n => cases hs; exact h
    | post => cases hs; rw [push]; exact h
    | take =>
      dsimp only at hs
      split at hs
      · cases hs
      · split at hs
        · cases hs; rw [beg]; exact h
        · cases hs; rw [beg]; exact h
        · cases hs
    | op o r =>
      cases o with
      | start i d =>
        dsimp only at hs
        split at hs
        · cases hrn : (t.data i).running
          · simp only [Tmr.operate, Tmr.touch, hrn, Bool.false_eq_true, if_false] at hs
            obtain ⟨_, rfl⟩ := ite_some hs
            rw [push]
            exact add (by simp [Odd])
          · simp only [Tmr.operate, Tmr.touch, hrn, if_true] at hs
            obtain ⟨_, rfl⟩ := ite_some hs
            rw [push]
            exact add (by simp [Odd])
        · cases hs
      | _ => cases hp
    | ret =>
      dsimp only at hs
      split at hs
      · cases hs; rw [ret]; exact h
      · cases hs
    | look =>
      dsimp only at hs
      split at hs
      · split at hs
        · cases hs; rw [ret]; exact h
        · split at hs <;> cases hs <;> exact add (by simp [Odd])
      · cases hs
    | waitJob =>
      dsimp only at hs
      split at hs
      · split at hs
        · cases hs
        · split at hs
          · cases hs; rw [beg]; exact h
          · cases hs
      · cases hs
    | waitOut =>
      dsimp only at hs
      split at hs
      · split at hs <;> cases hs; exact h
      · cases hs
    | fire r =>
      dsimp only at hs
      split at hs
      · next i touched fs _ =>
        have hev : ∀ d : Tmr.Data, ∀ e ∈ (if touched then [Tmr.Ev.overran i] else []) ++ [.fired i t.now d.deadline d.cyclic], Odd e = false := by
          intro d e he
          cases touched <;> simp at he <;> rcases he with rfl | rfl <;> rfl
        split at hs
        · cases hs; rw [ret]; exact h
        · split at hs
          · cases hs; exact h
          · split at hs
            · cases hs; exact h
            · split at hs
              · cases hs; exact h
              · split at hs
                · split at hs
                  · cases hs; exact add (hev _)
                  · cases hs
                · split at hs
                  · cases hs; rw [Tmr.noteEmpty_log]; exact add (hev _)
                  · cases hs
      · cases hs

/-- The thread's timers do what is proved in Props/Timer. -/
theorem timers {as : List Act} {s : State} (hr : run init as = some s) (hq : ∀ a ∈ as, Quiet a) : (∃ bs, Tmr.run Tmr.init bs = some s.t) ∧ ∀ e ∈ s.t.log, Odd e = false := by
  have key : ∀ (as : List Act) (s s' : State), I s → ((∃ bs, Tmr.run Tmr.init bs = some s.t) ∧ ∀ e ∈ s.t.log, Odd e = false) → (∀ a ∈ as, Quiet a) → run s as = some s' →
      (∃ bs, Tmr.run Tmr.init bs = some s'.t) ∧ ∀ e ∈ s'.t.log, Odd e = false := by
    intro as
    induction as with
    | nil => intro s s' _ h _ hr; cases hr; exact h
    | cons a as ih =>
      intro s s' hI h hq hr
      cases hst : step s a with
      | none => simp [run, hst] at hr
      | some s1 =>
        simp only [run, hst, Option.bind_some] at hr
        refine ih s1 s' (I_step hI (hq a (by simp)) hst) ?_ (fun a' ha => hq a' (by simp [ha])) hr
        obtain ⟨⟨bs, hb⟩, hl⟩ := h
        rcases timer_step hI (hq a (by simp)) hst with e | ⟨b, hp, e⟩
        · exact ⟨⟨bs, by rw [e]; exact hb⟩, by rw [e]; exact hl⟩
        · exact ⟨⟨bs ++ [b], tmr_snoc hb e⟩, plain_log hp e hl⟩
  exact key as init s I_init ⟨⟨[], rfl⟩, fun e he => by cases he⟩ hq hr

/-- While the thread alone goes on, a client that does not look keeps its deadline, and its timer is not started. -/
theorem keeps {i : Nat} (as : List Act) : ∀ {s s' : State}, J s → (∀ a ∈ as, a.own = true) → run s as = some s' → ∃ b, s'.log = s.log ++ b ∧
    ((∃ up ok N, .checked i up ok N ∈ b) ∨ ((s'.t.data i).deadline = (s.t.data i).deadline ∧ ((s'.t.data i).running = true → (s.t.data i).running = true))) := by
  induction as with
  | nil => intro s s' _ _ hr; cases hr; exact ⟨[], by simp, .inr ⟨rfl, id⟩⟩
  | cons a as ih =>
    intro s s' hj ho hr
    cases hst : step s a with
    | none => simp [run, hst] at hr
    | some s1 =>
      simp only [run, hst, Option.bind_some] at hr
      obtain ⟨hj1, eff⟩ := J_step hj hst
      obtain ⟨b, hb, hk⟩ := ih hj1 (fun a' ha => ho a' (by simp [ha])) hr
      have : ∃ b1, s1.log = s.log ++ b1 ∧ ((∃ up ok N, .checked i up ok N ∈ b1) ∨ ((s1.t.data i).deadline = (s.t.data i).deadline ∧ ((s1.t.data i).running = true → (s.t.data i).running = true))) := by
        cases eff with
        | start j _ hw hc hd hl => exact ⟨[], by simp [hl], .inr (by rw [hd]; exact ⟨rfl, id⟩)⟩
        | arrive w hm hw hc hd hl => exact ⟨_, hl, .inr (by rw [hd]; exact ⟨rfl, id⟩)⟩
        | foreign j e he hw hc hd hl =>
          refine ⟨_, hl, .inr ?_⟩
          rw [hd]
          by_cases e : i = j
          · subst e; simp [Tmr.upd]
          · rw [Tmr.upd_other e]; exact ⟨rfl, id⟩
        | inner hw hc hd hl => exact ⟨[], by simp [hl], .inr (by rw [hd]; exact ⟨rfl, id⟩)⟩
        | taken w hc0 hw hc hd hl => exact ⟨[], by simp [hl], .inr (by rw [hd]; exact ⟨rfl, id⟩)⟩
        | fired j hon hc0 hr hw hc hd hl =>
          refine ⟨[], by simp [hl], .inr ?_⟩
          rw [hd]
          by_cases e : i = j
          · subst e; simp [Tmr.upd]
          · rw [Tmr.upd_other e]; exact ⟨rfl, id⟩
        | looked j k up ok hc0 hw hc hd hl =>
          refine ⟨_, hl, ?_⟩
          by_cases e : i = j
          · subst e; exact .inl ⟨up, ok, _, List.mem_singleton.2 rfl⟩
          · rw [hd, Tmr.upd_other e]; exact .inr ⟨rfl, id⟩
        | done w e hm he hc0 hw hc hd hl => exact ⟨_, hl, .inr (by rw [hd]; exact ⟨rfl, id⟩)⟩
        | ret hc0 hw hc hd hl => exact ⟨[], by simp [hl], .inr (by rw [hd]; exact ⟨rfl, id⟩)⟩
      obtain ⟨b1, hb1, hk1⟩ := this
      refine ⟨b1 ++ b, by rw [hb, hb1, List.append_assoc], ?_⟩
      rcases hk1 with ⟨up, ok, N, h⟩ | ⟨h1, h2⟩
      · exact .inl ⟨up, ok, N, by simp [h]⟩
      · rcases hk with ⟨up, ok, N, h⟩ | ⟨h3, h4⟩
        · exact .inl ⟨up, ok, N, by simp [h]⟩
        · exact .inr ⟨by rw [h3, h1], fun h => h2 (h4 h)⟩

/-- C110 (as long as no client is stopped or destroyed, and no look of a client comes while the thread waits for another
client's and lasts past its time, `overran`): when the first or next look of a client that was started is due, or in progress,
the thread alone can go on, without time passing, until it is done. -/
theorem look_comes_partial {as : List Act} {s : State} (hr : run init as = some s) (hq : ∀ a ∈ as, Quiet a) {i : Nat} (hi : s.started i = true)
    (hd : (s.t.data i).running = true → (s.t.data i).deadline ≤ s.t.now) (ans : Nat → Bool × Bool) :
    ∃ as' s' b, (∀ a ∈ as', a.own = true) ∧ run s as' = some s' ∧ s'.t.now = s.t.now ∧ s'.log = s.log ++ b ∧ Answers ans b ∧
      ((∃ up ok N, .checked i up ok N ∈ b) ∨ ∃ j, Tmr.Ev.overran j ∈ s'.t.log) := by
  have h := I_run I_init hq hr
  obtain ⟨s', ⟨as', b, g1, g2, g3, g4, g5⟩, hrest⟩ := drain (ans := ans) _ _ _ _ h rfl rfl rfl rfl
  refine ⟨as', s', b, g1, g2, g3, g4, g5, ?_⟩
  have hI := I_run h (fun a ha => own_quiet (g1 a ha)) g2
  refine Classical.byContradiction fun hno => ?_
  have hno1 : ¬ ∃ up ok N, .checked i up ok N ∈ b := fun h => hno (.inl h)
  have hno2 : ∀ j, Tmr.Ev.overran j ∉ s'.t.log := fun j h => hno (.inr ⟨j, h⟩)
  obtain ⟨b', hb', hk⟩ := keeps (i := i) as' (inv_run (P := MsgI) rfl (fun _ _ _ h e => MsgI_step h e) hr).1 g1 g2
  have : b' = b := List.append_cancel_left (hb'.symm.trans g4)
  subst this
  rcases hk with hk | ⟨hk1, hk2⟩
  · exact hno1 hk
  · have hrr : run init (as ++ as') = some s' := by rw [run_append, hr]; exact g2
    have hqq : ∀ a ∈ as ++ as', Quiet a := by
      intro a ha
      rcases List.mem_append.1 ha with ha | ha
      · exact hq a ha
      · exact own_quiet (g1 a ha)
    have hst : s'.started i = true := by
      have : ∀ (as : List Act) (s s' : State), J s → run s as = some s' → s.started i = true → s'.started i = true := by
        intro as
        induction as with
        | nil => intro s s' _ hr h; cases hr; exact h
        | cons a as ih =>
          intro s s' hj hr h
          cases hst : step s a with
          | none => simp [run, hst] at hr
          | some s1 =>
            simp only [run, hst, Option.bind_some] at hr
            obtain ⟨hj1, eff⟩ := J_step hj hst
            refine ih s1 s' hj1 hr ?_
            cases eff with
            | start j h0 hw hc hd hl hs ht hst =>
              rw [hst]
              by_cases e : i = j
              · subst e; simp [Tmr.upd]
              · rw [Tmr.upd_other e]; exact h
            | _ => simp_all
      exact this as' s s' (inv_run (P := MsgI) rfl (fun _ _ _ h e => MsgI_step h e) hr).1 g2 hi
    have htok := hI.tok i
    rw [tok_eq, hst, hrest.1, rest_done hI hrest] at htok
    have hrun : (s'.t.data i).running = true := by
      cases e : (s'.t.data i).running with
      | true => rfl
      | false => simp [e] at htok
    obtain ⟨⟨bs, hbs⟩, hodd⟩ := timers hrr hqq
    have hcalm : Tmr.Calm s'.t.log := ⟨fun l1 j t l2 e => (by have := hodd (.restarted j t) (by rw [e]; simp); cases this), hno2⟩
    have hns : Tmr.Ev.procStopped ∉ s'.t.log := fun h => by have := hodd _ h; cases this
    have hrec := Tmr.records_exact_partial hbs hcalm
    have hmem : i ∈ s'.t.records := (hrec.2.2.1 i).2 (by rw [← Tmr.running_is hbs]; exact hrun)
    have hatt := Tmr.attended hbs hns (List.ne_nil_of_mem hmem)
    rcases hrest.2.2 with e | ⟨f, dl, e, hlt⟩
    · rw [e, hrest.2.1] at hatt
      simp at hatt
    · have hw := Tmr.waits_for_earliest_partial hbs hcalm hns e
      have := hw.2.2 i (by rw [← Tmr.running_is hbs]; exact hrun)
      rw [← hrec.2.2.2.1 i hmem, hk1] at this
      have := hd (hk2 hrun)
      omega

/-- Nothing was done to timers while the thread waited. -/
structure Un (s : State) : Prop where
  held : ∀ i t, .held i t ∈ s.t.stack → t = false
  waited : ∀ i t, .waited i t ∈ s.t.stack → t = false
  log : ∀ i, Tmr.Ev.overran i ∉ s.t.log

theorem Un_step {s s' : State} {a : Act} {c : Nat} (h : I s) (hu : Un s) (hone : ∀ i, s.started i = true → i = c) (hq : Quiet a) (hs : step s a = some s') : Un s' := by
  have same : s'.t.stack = s.t.stack → s'.t.log = s.t.log → Un s' := fun e1 e2 => ⟨by rw [e1]; exact hu.held, by rw [e1]; exact hu.waited, by rw [e2]; exact hu.log⟩
  have bare : (∀ i t, .held i t ∉ s'.t.stack) → (∀ i t, .waited i t ∉ s'.t.stack) → (∀ i, Tmr.Ev.overran i ∉ s'.t.log) → Un s' := fun e1 e2 e3 =>
    ⟨fun i t hm => absurd hm (e1 i t), fun i t hm => absurd hm (e2 i t), e3⟩
  have tk : ∀ {j js fs}, taken s j (Tmr.begin { s.t with jobs := js } fs j) = some s' → (fs = [] ∨ ∃ i, fs = [.held i false]) → s.t.st = .waiting ∨ fs = [] → Un s' := by
    intro j js fs hs hfs hw
    have e : s'.t = Tmr.begin { s.t with jobs := js } fs j := by
      unfold taken at hs
      split at hs
      · split at hs <;> cases hs; rfl
      · cases hs; rfl
    constructor <;> rw [e] <;> intro i <;> cases j <;> rcases hfs with rfl | ⟨i', rfl⟩ <;> simp [Tmr.begin, Tmr.ret]
    all_goals (try split) <;> simp_all [hu.log]
  have hub : s.ub = false := h.ub
  cases a with
  | start i =>
    unfold step at hs
    rw [if_neg (by simp [hub])] at hs
    dsimp only at hs
    split at hs
    · cases hs
    · cases hs; exact same (by simp [submit, Tmr.push, h.opened]) (by simp [submit, Tmr.push, h.opened])
  | arrive w =>
    unfold step at hs
    rw [if_neg (by simp [hub])] at hs
    cases w <;> cases hs <;> exact same (by simp [submit, Tmr.push, h.opened]) (by simp [submit, Tmr.push, h.opened])
  | stop i => exact absurd rfl (hq.1 i)
  | destroy i => exact absurd rfl (hq.2 i)
  | destroySrv i =>
    unfold step at hs
    rw [if_neg (by simp [hub])] at hs
    cases hs; exact same rfl rfl
  | tick n =>
    simp [step, hub, Tmr.step, h.tub] at hs
    subst hs
    exact same rfl rfl
  | take =>
    cases hc : s.cur with
    | some w => simp [step, hub, hc] at hs
    | none =>
      cases hj : s.t.jobs with
      | nil => simp [step, hub, hc, hj] at hs
      | cons j js =>
        have k := take_eq h hc hj hs
        exact tk k.2 (.inl rfl) (.inr rfl)
  | waitJob =>
    obtain ⟨i, dl, j, js, e1, e2, e3⟩ := waitJob_eq h hs
    exact tk e3 (.inr ⟨i, rfl⟩) (.inl (h.st.2 (.inl ⟨i, dl, e1⟩)))
  | look =>
    simp only [step, hub, Tmr.step, h.tub, Bool.false_eq_true, if_false] at hs
    rcases h.shape with ⟨hc, e | e | ⟨i, dl, e⟩ | ⟨i, t, e⟩⟩ | ⟨hc, e | e | ⟨i, t, e⟩⟩ <;> rw [e] at hs <;> simp at hs
    obtain ⟨t, ht, rfl⟩ := hs
    split at ht
    · cases ht; exact bare (by simp [Tmr.ret]) (by simp [Tmr.ret]) (by simpa [Tmr.ret] using hu.log)
    · split at ht <;> cases ht
      · exact ⟨by simp, by simp, by simpa using hu.log⟩
      · exact bare (by simp) (by simp) (by simpa using hu.log)
  | waitOut =>
    simp only [step, hub, Tmr.step, h.tub, Bool.false_eq_true, if_false] at hs
    rcases h.shape with ⟨hc, e | e | ⟨i, dl, e⟩ | ⟨i, t, e⟩⟩ | ⟨hc, e | e | ⟨i, t, e⟩⟩ <;> rw [e] at hs <;> simp at hs
    obtain ⟨_, rfl⟩ := hs
    exact ⟨by simp, by simp, hu.log⟩
  | fire r =>
    obtain ⟨i, tch, e⟩ := fire_stack h hs
    have : tch = false := hu.waited i tch (by rw [e]; simp)
    subst this
    rcases (fire_iff h e).1 hs with ⟨_, rfl⟩ | ⟨_, _, rfl⟩
    · exact bare (by simp) (by simp) hu.log
    · refine bare ?_ ?_ ?_
      · rw [show (fired s i r false).t.stack = [.user, .check] from noteEmpty_stack _]; simp
      · rw [show (fired s i r false).t.stack = [.user, .check] from noteEmpty_stack _]; simp
      · intro j
        rw [show (fired s i r false).t.log = s.t.log ++ [.fired i s.t.now (s.t.data i).deadline false] from Tmr.noteEmpty_log _]
        simpa using hu.log j
  | work up ok r =>
    cases hc : s.cur with
    | none => simp [step, hub, perform, hc] at hs
    | some w =>
      cases w with
      | monitor i k =>
        obtain ⟨_, rfl⟩ := (work_mon_iff h hc).1 hs
        have hti := h.tok i
        rw [tok_eq, hc] at hti
        have hsi : s.started i = true := by
          cases e : s.started i with
          | true => rfl
          | false => simp [e, Work.isMon] at hti
        have hlog : ∀ j, Tmr.Ev.overran j ∉ (looked s i k up ok r).t.log := by
          intro j
          show Tmr.Ev.overran j ∉ s.t.log ++ [_]
          simpa using hu.log j
        have hstk : (looked s i k up ok r).t.stack = s.t.stack.map Frame.touch := rfl
        rcases user_shape h hc with e | e | ⟨j, t, e⟩
        · exact bare (by rw [hstk, e]; simp [Frame.touch]) (by rw [hstk, e]; simp [Frame.touch]) hlog
        · exact bare (by rw [hstk, e]; simp [Frame.touch]) (by rw [hstk, e]; simp [Frame.touch]) hlog
        · -- the timer waited for is this client's own, since there is no other
          exfalso
          have hj := h.front j (by simp [On, e])
          have hjr : (s.t.data j).running = true := by
            rcases h.recs j hj with k | ⟨_, k⟩
            · exact k
            · rw [e] at k; cases k
          have hsj : s.started j = true := by
            have := h.tok j
            rw [tok_eq, hjr] at this
            cases e : s.started j with
            | true => rfl
            | false => simp [e] at this
          have : j = i := (hone j hsj).trans (hone i hsi).symm
          subst this
          rw [mon_idle h hc] at hjr
          cases hjr
      | message i m => rw [work_msg h hc] at hs; cases hs; exact same rfl rfl
      | server i m => rw [work_srv h hc] at hs; cases hs; exact same rfl rfl
      | over => simp [step, hub, perform, hc] at hs
  | ret =>
    obtain ⟨hc, hs⟩ := (ret_iff h).1 hs
    rcases hs with ⟨e, rfl⟩ | ⟨e, rfl⟩ | ⟨i, t, e, rfl⟩
    · exact bare (by simp) (by simp) hu.log
    · exact bare (by simp) (by simp) hu.log
    · have : t = false := hu.held i t (by rw [e]; simp)
      subst this
      exact ⟨by simp, by simp, hu.log⟩

/-- The only client that is started is `c`. -/
def Only (c : Nat) (a : Act) : Prop := ∀ i, a = .start i → i = c

theorem started_same {s s' : State} {a : Act} (ha : ∀ i, a ≠ .start i) (hs : step s a = some s') : s'.started = s.started := by
  have htk : ∀ {j : Job} {t : Tmr.State}, taken s j t = some s' → s'.started = s.started := by
    intro j t h
    unfold taken at h
    split at h
    · split at h <;> cases h; rfl
    · cases h; rfl
  unfold step at hs
  split at hs
  · cases hs
  · cases a with
    | start i => exact absurd rfl (ha i)
    | arrive w => cases w <;> cases hs <;> rfl
    | stop i => cases hs; rfl
    | destroy i => cases hs; rfl
    | destroySrv i => cases hs; rfl
    | tick n => obtain ⟨_, _, rfl⟩ := Option.map_eq_some_iff.1 hs; rfl
    | take =>
      dsimp only at hs
      split at hs
      · cases hs
      · split at hs
        · obtain ⟨_, _, hs⟩ := Option.bind_eq_some_iff.1 hs
          exact htk hs
        · cases hs
    | waitJob =>
      dsimp only at hs
      split at hs
      · obtain ⟨_, _, hs⟩ := Option.bind_eq_some_iff.1 hs
        exact htk hs
      · cases hs
    | look => obtain ⟨_, _, rfl⟩ := Option.map_eq_some_iff.1 hs; rfl
    | waitOut => obtain ⟨_, _, rfl⟩ := Option.map_eq_some_iff.1 hs; rfl
    | fire r =>
      dsimp only at hs
      split at hs
      · obtain ⟨_, _, rfl⟩ := Option.map_eq_some_iff.1 hs
        split <;> rfl
      · cases hs
    | work up ok r =>
      dsimp only at hs
      unfold perform at hs
      split at hs
      · split at hs
        · cases hs; rfl
        · obtain ⟨_, _, rfl⟩ := Option.map_eq_some_iff.1 hs; rfl
      · split at hs <;> cases hs <;> rfl
      · split at hs <;> cases hs <;> rfl
      · cases hs
    | ret =>
      dsimp only at hs
      split at hs
      · obtain ⟨_, _, rfl⟩ := Option.map_eq_some_iff.1 hs; rfl
      · cases hs

theorem Un_run {c : Nat} (as : List Act) : ∀ {s s' : State}, I s → Un s → (∀ i, s.started i = true → i = c) → (∀ a ∈ as, Quiet a) → (∀ a ∈ as, Only c a) → run s as = some s' →
    Un s' ∧ ∀ i, s'.started i = true → i = c := by
  induction as with
  | nil => intro s s' _ hu ho _ _ hr; cases hr; exact ⟨hu, ho⟩
  | cons a as ih =>
    intro s s' h hu ho hq hon hr
    cases hst : step s a with
    | none => simp [run, hst] at hr
    | some s1 =>
      simp only [run, hst, Option.bind_some] at hr
      refine ih (I_step h (hq a (by simp)) hst) (Un_step h hu ho (hq a (by simp)) hst) ?_ (fun a' ha => hq a' (by simp [ha])) (fun a' ha => hon a' (by simp [ha])) hr
      intro i hi
      by_cases e : a = .start i
      · exact hon a (by simp) i e
      · apply ho
        cases a with
        | start j =>
          have hne : i ≠ j := fun e' => e (by rw [e'])
          unfold step at hst
          rw [if_neg (by simp [h.ub])] at hst
          dsimp only at hst
          split at hst
          · cases hst
          · cases hst
            rw [← hi]
            exact (Tmr.upd_other hne).symm
        | _ => rw [← started_same (fun _ => by simp) hst]; exact hi

/-- C110: with one client in the process, and as long as it is not stopped or destroyed, whenever its first or next look is due or in
progress the thread alone can go on, without time passing, until it is done. -/
theorem one_client_looks_partial {c : Nat} {as : List Act} {s : State} (hr : run init as = some s) (hq : ∀ a ∈ as, Quiet a) (ho : ∀ a ∈ as, Only c a) (hi : s.started c = true)
    (hd : (s.t.data c).running = true → (s.t.data c).deadline ≤ s.t.now) (ans : Nat → Bool × Bool) :
    ∃ as' s' b, (∀ a ∈ as', a.own = true) ∧ run s as' = some s' ∧ s'.t.now = s.t.now ∧ s'.log = s.log ++ b ∧ Answers ans b ∧ ∃ up ok N, .checked c up ok N ∈ b := by
  obtain ⟨as', s', b, h1, h2, h3, h4, h5, h6⟩ := look_comes_partial hr hq hi hd ans
  refine ⟨as', s', b, h1, h2, h3, h4, h5, h6.resolve_right ?_⟩
  rintro ⟨j, hj⟩
  have k := Un_run (c := c) (as ++ as') I_init ⟨by simp [init, Tmr.init], by simp [init, Tmr.init], by simp [init, Tmr.init]⟩ (by simp [init]) (s' := s') ?_ ?_ (by rw [run_append, hr]; exact h2)
  · exact k.1.log j hj
  · intro a ha
    rcases List.mem_append.1 ha with ha | ha
    · exact hq a ha
    · exact own_quiet (h1 a ha)
  · intro a ha
    rcases List.mem_append.1 ha with ha | ha
    · exact ho a ha
    · intro i e
      have := h1 a ha
      rw [e] at this
      cases this

/-- A case: client 0 finds its server after 5 milliseconds; a message comes in while the thread waits. -/
def busy : List Act := [.start 0, .take, .work false true [0], .ret, .take, .look, .tick 5, .waitOut, .fire [], .work true true [0], .ret, .look, .arrive (.message 0 7), .tick 505]

theorem busy_ok : ∃ s, run init busy = some s ∧ (∀ a ∈ busy, Quiet a) ∧ (∀ a ∈ busy, Only 0 a) ∧ s.started 0 = true ∧ ((s.t.data 0).running = true → (s.t.data 0).deadline ≤ s.t.now) ∧
    s.log = [.checked 0 false true 5, .checked 0 true true 500, .came (.message 0 7)] := by
  refine ⟨_, rfl, ?_, ?_, rfl, fun _ => by decide, rfl⟩
  · intro a ha
    constructor <;> intro i e <;> subst e <;> simp [busy] at ha
  · intro a ha i e
    subst e
    simpa [busy] using ha

/-! ### What goes wrong -/

/-- The loop goes round and round over the timer of client `i`, which was stopped by another thread. -/
structure Frozen (i D : Nat) (s : State) : Prop where
  ub : s.ub = false
  tub : s.t.ub = false
  opened : s.t.closed = false
  front : s.t.records.head? = some i
  idle : (s.t.data i).running = false
  dl : (s.t.data i).deadline = D
  now : D ≤ s.t.now
  stack : s.t.stack = [.check] ∨ s.t.stack = [.waited i false]
  cur : s.cur = none

theorem Frozen_step {i D : Nat} {s s' : State} {a : Act} (h : Frozen i D s) (ht : ∀ n, a = .tick n → D ≤ n) (hs : step s a = some s') : Frozen i D s' ∧ dealt s'.log = dealt s.log ∧
    ((∃ j up ok k, .checked j up ok k ∈ s'.log ∧ .checked j up ok k ∉ s.log) → False) := by
  obtain ⟨h1, h2, h3, h4, h5, h6, h7, h8, h9⟩ := h
  cases hrec : s.t.records with
  | nil => rw [hrec] at h4; cases h4
  | cons f rest =>
  rw [hrec] at h4
  cases h4
  unfold step at hs
  rw [if_neg (by simp [h1])] at hs
  have hfor : ∀ j, ((foreignStop s.t j).data i).running = false ∧ ((foreignStop s.t j).data i).deadline = D := by
    intro j
    simp only [foreignStop, Tmr.upd]
    split
    · next e => subst e; exact ⟨rfl, h6⟩
    · exact ⟨h5, h6⟩
  have hsub : ∀ w, (submit s w).t = { s.t with jobs := s.t.jobs ++ [.user] } := fun w => by simp [submit, Tmr.push, h3]
  cases a with
  | start j =>
    dsimp only at hs
    split at hs
    · cases hs
    · cases hs
      refine ⟨⟨h1, ?_, ?_, ?_, ?_, ?_, ?_, ?_, h9⟩, rfl, fun ⟨_, _, _, _, a, b⟩ => b a⟩
      all_goals simp only [submit, Tmr.push, h3, Bool.false_eq_true, if_false]
      all_goals first | assumption | simp [hrec]
  | arrive w =>
    cases w <;> cases hs
    all_goals
      refine ⟨⟨h1, ?_, ?_, ?_, ?_, ?_, ?_, ?_, h9⟩, by simp [dealt, submit], fun ⟨_, _, _, _, a, b⟩ => by simp [submit] at a; exact b a⟩
      all_goals simp only [submit, Tmr.push, h3, Bool.false_eq_true, if_false]
      all_goals first | assumption | simp [hrec]
  | stop j =>
    cases hs
    exact ⟨⟨h1, h2, h3, by simp [foreignStop, hrec], (hfor j).1, (hfor j).2, h7, h8, h9⟩, by simp [dealt], fun ⟨_, _, _, _, a, b⟩ => by simp at a; exact b a⟩
  | destroy j =>
    cases hs
    exact ⟨⟨h1, h2, h3, by simp [foreignStop, hrec], (hfor j).1, (hfor j).2, h7, h8, h9⟩, by simp [dealt], fun ⟨_, _, _, _, a, b⟩ => by simp at a; exact b a⟩
  | destroySrv j => cases hs; exact ⟨⟨h1, h2, h3, by simp [hrec], h5, h6, h7, h8, h9⟩, rfl, fun ⟨_, _, _, _, a, b⟩ => b a⟩
  | tick n =>
    simp [Tmr.step, h2] at hs
    subst hs
    exact ⟨⟨h1, rfl, h3, by simp [hrec], h5, h6, ht n rfl, h8, h9⟩, rfl, fun ⟨_, _, _, _, a, b⟩ => b a⟩
  | take =>
    simp only [h9] at hs
    rcases h8 with e | e <;> cases hj : s.t.jobs <;> simp [hj, Tmr.step, h2, h3, e] at hs
  | waitJob => rcases h8 with e | e <;> cases hj : s.t.jobs <;> simp [hj, Tmr.step, h2, e] at hs
  | look =>
    rcases h8 with e | e <;> simp [Tmr.step, h2, e, hrec, h6, h7] at hs
    subst hs
    exact ⟨⟨h1, rfl, h3, by simp, h5, h6, h7, .inr rfl, h9⟩, rfl, fun ⟨_, _, _, _, a, b⟩ => b a⟩
  | waitOut => rcases h8 with e | e <;> simp [Tmr.step, h2, e] at hs
  | fire r =>
    rcases h8 with e | e <;> simp [Tmr.step, h2, h3, e, hrec, h6, Nat.not_lt.2 h7, h5] at hs
    subst hs
    exact ⟨⟨h1, rfl, rfl, by simp, h5, h6, h7, .inl rfl, h9⟩, rfl, fun ⟨_, _, _, _, a, b⟩ => b a⟩
  | work up ok r => simp [perform, h9] at hs
  | ret => simp [h9] at hs

theorem frozen_forever {i D : Nat} (as : List Act) : ∀ {s s' : State}, Frozen i D s → (∀ n, .tick n ∈ as → D ≤ n) → run s as = some s' → Frozen i D s' ∧ dealt s'.log = dealt s.log ∧
    (∀ j up ok k, .checked j up ok k ∈ s'.log → .checked j up ok k ∈ s.log) := by
  induction as with
  | nil => intro s s' h _ hr; cases hr; exact ⟨h, rfl, fun _ _ _ _ h => h⟩
  | cons a as ih =>
    intro s s' h ht hr
    cases hst : step s a with
    | none => simp [run, hst] at hr
    | some s1 =>
      simp only [run, hst, Option.bind_some] at hr
      obtain ⟨k1, k2, k3⟩ := Frozen_step h (fun n e => ht n (by simp [e])) hst
      obtain ⟨k4, k5, k6⟩ := ih k1 (fun n hn => ht n (by simp [hn])) hr
      refine ⟨k4, by rw [k5, k2], fun j up ok k hm => ?_⟩
      exact Classical.byContradiction fun hno => k3 ⟨j, up, ok, k, k6 j up ok k hm, hno⟩

/-- C110 fails once a client is stopped: in every state in which the thread has nothing to do and waits for the look of client `i`,
`stop` of that client by a thread of the user leaves the IPC thread in a loop: once the time of the look has come, no message to any client or
server of the process is handled any more and no client looks at its server, whatever happens after that (unless the clock is set back), although
the thread can always make a step. -/
theorem stop_freezes {as : List Act} {s : State} (hr : run init as = some s) (hq : ∀ a ∈ as, Quiet a) (hno : ∀ j, Tmr.Ev.overran j ∉ s.t.log) {i dl : Nat} (hst : s.t.stack = [.waiting i dl]) (hj : s.t.jobs = []) :
    ∃ s1, run s [.stop i, .tick dl, .waitOut] = some s1 ∧ ∀ as' s2, (∀ n, .tick n ∈ as' → dl ≤ n) → run s1 as' = some s2 →
      dealt s2.log = dealt s.log ∧ (∀ j up ok k, .checked j up ok k ∈ s2.log → .checked j up ok k ∈ s.log) ∧ ∃ a s3, a.own = true ∧ step s2 a = some s3 := by
  have h := I_run I_init hq hr
  obtain ⟨⟨bs, hbs⟩, hodd⟩ := timers hr hq
  have hcalm : Tmr.Calm s.t.log := ⟨fun l1 j t l2 e => (by have := hodd (.restarted j t) (by rw [e]; simp); cases this), hno⟩
  have hfr := ((Tmr.reach_univ hbs).2.2 hcalm).front (.waiting i dl) (by rw [hst]; simp) i rfl
  have hdl := h.wait i dl hst
  have hc := cur_none h (by simp [hst])
  let s1 : State := { s with t := { s.t with now := dl, data := Tmr.upd s.t.data i { s.t.data i with running := false }, stack := [.waited i false], st := .haveTimer }, log := s.log ++ [.stopped i] }
  have hrun : run s [.stop i, .tick dl, .waitOut] = some s1 := by
    simp [run, step, h.ub, foreignStop, Tmr.step, h.tub, hst, hj, s1]
  have hF : Frozen i dl s1 := ⟨h.ub, h.tub, h.opened, hfr, by simp [s1, Tmr.upd], by simpa [s1, Tmr.upd] using hdl, Nat.le_refl _, .inr rfl, hc⟩
  refine ⟨s1, hrun, fun as' s2 ht hr2 => ?_⟩
  obtain ⟨k1, k2, k3⟩ := frozen_forever as' hF ht hr2
  refine ⟨by rw [k2]; simp [s1, dealt], fun j up ok k hm => by have := k3 j up ok k hm; simpa [s1] using this, ?_⟩
  obtain ⟨h1, h2, h3, h4, h5, h6, h7, h8, h9⟩ := k1
  cases hrec : s2.t.records with
  | nil => rw [hrec] at h4; cases h4
  | cons f rest =>
    rw [hrec] at h4
    cases h4
    rcases h8 with e | e
    · exact ⟨.look, by simp [step, h1, Tmr.step, h2, e, hrec, h6, h7, Act.own]⟩
    · exact ⟨.fire [], by simp [step, h1, Tmr.step, h2, h3, e, h6, Nat.not_lt.2 h7, h5, Act.own]⟩

/-- It happens with one client that has just been started. -/
theorem stop_freezes_case : ∃ s, run init [.start 0, .take, .work false true [0], .ret, .take, .look] = some s ∧ s.t.stack = [.waiting 0 5] ∧ s.t.jobs = [] ∧ s.t.log = [.started 0 0 5, .picked 0] :=
  ⟨_, rfl, rfl, rfl, rfl⟩

/-- `stop` while the client looks has no effect: it goes on looking. -/
theorem stop_unheard : ∃ s, run init [.start 0, .take, .stop 0, .work false true [0], .ret, .take, .look, .tick 5, .waitOut, .fire [], .work false true [0]] = some s ∧
    s.log = [.stopped 0, .checked 0 false true 5, .checked 0 false true 10] := ⟨_, rfl, rfl⟩

/-- And if the client is destroyed then, the next look uses it. -/
theorem look_after_destruction : ∃ s, run init [.start 0, .take, .stop 0, .work false true [0], .ret, .take, .look, .tick 5, .waitOut, .fire [], .destroy 0, .work false true []] = some s ∧ s.ub = true :=
  ⟨_, rfl, rfl⟩

/-- A message that came in before its client was stopped and destroyed is handled after that. -/
theorem message_after_destruction : ∃ s, run init [.start 0, .take, .work false true [0], .ret, .take, .look, .arrive (.message 0 1), .stop 0, .destroy 0, .waitJob, .work false true []] = some s ∧ s.ub = true :=
  ⟨_, rfl, rfl⟩

/-- A client whose timer runs but is not among the thread's is lost: it never looks at its server again, whatever happens, as long as no client is stopped. -/
theorem lost_forever (as : List Act) {i : Nat} : ∀ {s s' : State}, I s → J s → (s.t.data i).running = true → i ∉ s.t.records → (∀ a ∈ as, Quiet a) → run s as = some s' →
    ∀ up ok k, .checked i up ok k ∈ s'.log → .checked i up ok k ∈ s.log := by
  induction as with
  | nil => intro s s' _ _ _ _ _ hr _ _ _ hm; cases hr; exact hm
  | cons a as ih =>
    intro s s' h hj hrun hrec hq hr up ok k hm
    cases hst : step s a with
    | none => simp [run, hst] at hr
    | some s1 =>
      simp only [run, hst, Option.bind_some] at hr
      have hI1 := I_step h (hq a (by simp)) hst
      obtain ⟨hj1, eff⟩ := J_step hj hst
      have hcur : ∀ k, s.cur ≠ some (.monitor i k) := fun k hc => by rw [mon_idle h hc] at hrun; cases hrun
      -- the only step that makes a record is a look
      have hr1 : i ∉ s1.t.records := by
        rcases timer_step h (hq a (by simp)) hst with e | ⟨b, hp, e⟩
        · rw [e]; exact hrec
        · cases Tmr.step_effect e with
          | quiet hd hr => rw [hr]; exact hrec
          | cyc j c hd hr => rw [hr]; exact hrec
          | picked j rest h hd hr => rw [hr]; exact hrec
          | stopProc hd hr => rw [hr]; exact hrec
          | startRunning j d h hd hr => rw [hr.mem]; exact hrec
          | startNew j d h0 hd hh hr =>
            rw [hr.mem]
            intro hm
            rcases List.mem_append.1 hm with hm | hm
            · exact hrec hm
            · have : i = j := by simpa using hm
              subst this
              rw [hrun] at h0
              cases h0
          | stopIdle j h hd hr => rw [hr]; exact hrec
          | stopFront j rest h hd hf hh hr => rw [hr.mem]; intro hm; exact hrec (by rw [hf]; simp [hm])
          | stopOther j h hd hf hh hr => rw [hr.mem]; intro hm; exact hrec (List.mem_of_mem_erase hm)
          | stopLost j h hd hf hh hr => rw [hr]; exact hrec
          | restart j hd hn hh hr => rw [hr.mem]; exact hrec
          | restartUB j hd hn hh hr => rw [hr]; exact hrec
          | fireUB j h hn hd hr => rw [hr]; exact hrec
          | fire j f rest touched fs h hst hdl hf hl hh hc =>
            rcases hc with ⟨_, _, hr⟩ | ⟨_, _, hr⟩
            · rw [hr.mem, ← hf]; exact hrec
            · rw [hr.mem]; intro hm; exact hrec (by rw [hf]; simp [hm])
      have hk : (s1.t.data i).running = true ∧ ∀ up ok k, .checked i up ok k ∈ s1.log → .checked i up ok k ∈ s.log := by
        cases eff with
        | start j _ hw hc hd hl => rw [hd, hl]; exact ⟨hrun, fun _ _ _ h => h⟩
        | arrive w hm hw hc hd hl => rw [hd, hl]; exact ⟨hrun, fun _ _ _ h => by simpa using h⟩
        | foreign j e he hw hc hd hl hs ht hst' =>
          have hne : i ≠ j := by
            intro e
            have k := hI1.tok i
            have k' := h.tok i
            rw [tok_eq, hw, hc, hd, hst', e] at k
            rw [tok_eq, e] at k'
            rw [e] at hrun
            rw [hrun] at k'
            simp only [Tmr.upd, if_true, Bool.false_eq_true, if_false] at k k'
            omega
          rw [hd, hl, Tmr.upd_other hne]
          refine ⟨hrun, fun _ _ _ h => ?_⟩
          rcases he with rfl | rfl <;> simpa using h
        | inner hw hc hd hl => rw [hd, hl]; exact ⟨hrun, fun _ _ _ h => h⟩
        | taken w hc0 hw hc hd hl => rw [hd, hl]; exact ⟨hrun, fun _ _ _ h => h⟩
        | fired j hon hc0 hr hw hc hd hl =>
          have hne : i ≠ j := fun e => hrec (h.front i (by rw [e]; exact hon))
          rw [hd, hl, Tmr.upd_other hne]
          exact ⟨hrun, fun _ _ _ h => h⟩
        | looked j k up ok hc0 hw hc hd hl =>
          have hne : i ≠ j := fun e => hcur k (by rw [e]; exact hc0)
          rw [hd, hl, Tmr.upd_other hne]
          refine ⟨hrun, fun _ _ _ h => ?_⟩
          rcases List.mem_append.1 h with h | h
          · exact h
          · simp only [List.mem_singleton, Ev.checked.injEq] at h
            exact absurd h.1 hne
        | done w e hm he hc0 hw hc hd hl =>
          rw [hd, hl]
          refine ⟨hrun, fun _ _ _ h => ?_⟩
          rcases he with rfl | rfl <;> simpa using h
        | ret hc0 hw hc hd hl => rw [hd, hl]; exact ⟨hrun, fun _ _ _ h => h⟩
      exact hk.2 up ok k (ih hI1 hj1 hk.1 hr1 (fun a' ha => hq a' (by simp [ha])) hr up ok k hm)

/-- C110 fails with two clients even if none is stopped: the look of client 1 comes while the thread waits for that of client 0, and returns after the
time of client 0 has come: then client 1's timer is thrown away, and client 1 never looks at its server again. -/
def lostRun : List Act := [.start 0, .take, .work true true [0], .ret, .take, .look, .start 1, .waitJob, .work false true [1, 0], .tick 500, .ret, .fire [0], .work true true [0, 0], .ret]

theorem two_clients_lose : ∃ s, run init lostRun = some s ∧ (∀ a ∈ lostRun, Quiet a) ∧ s.log = [.checked 0 true true 500, .checked 1 false true 5, .checked 0 true true 500] ∧
    ∀ as s', (∀ a ∈ as, Quiet a) → run s as = some s' → ∀ up ok k, .checked 1 up ok k ∈ s'.log → (up, ok, k) = (false, true, 5) := by
  have hq : ∀ a ∈ lostRun, Quiet a := by
    intro a ha
    constructor <;> intro i e <;> subst e <;> simp [lostRun] at ha
  have h0 : ∃ s, run init lostRun = some s ∧ s.log = [.checked 0 true true 500, .checked 1 false true 5, .checked 0 true true 500] ∧ (s.t.data 1).running = true ∧ s.t.records = [0, 0] :=
    ⟨_, rfl, rfl, rfl, rfl⟩
  obtain ⟨s, h1, h2, h3, h4⟩ := h0
  refine ⟨s, h1, hq, h2, fun as s' ha hr up ok k hm => ?_⟩
  have := lost_forever as (I_run I_init hq h1) (inv_run (P := MsgI) rfl (fun _ _ _ h e => MsgI_step h e) h1).1 h3 (by rw [h4]; decide) ha hr up ok k hm
  rw [h2] at this
  simpa using this

end Mon
end Maf
