import Verif.Lemmas.StatusPost
/-
C125: observers that post the status of a service to a processor.
-/
namespace Maf.Sso
open Maf.Proc (Tid posting)
open Maf.Watch (Avail)

/-- C125: the processor's part of every execution is an execution of the processor: all that is proved of it applies. Notifications are numbered in the order in which they are made. -/
theorem parts (as : List Act) (s : State) (hr : run init as = some s) :
    (∃ bs, Proc.run Proc.init bs = some s.p) ∧ procOf s.log = s.p.log ∧ notes s.log = List.range s.next :=
  ⟨(reach_inv hr).pr, (reach_inv hr).pl, (reach_inv hr).cnt⟩

/-- C125: every notification is posted at once, by the thread that makes it, unless the processor is gone; only then is it not posted at all. Nothing else posts a status message. -/
theorem posted_at_once (as : List Act) (s : State) (hr : run init as = some s) :
    (∀ a e b n t, s.log = a ++ e :: b → IsNote e n t →
      (.gone ∉ a ∧ ∃ c, b = .proc (.asked t (.msg ⟨statusTy, n⟩)) :: c) ∨ (.gone ∈ a ∧ ∃ c, b = .lost n :: c)) ∧
    ∀ a t n b, s.log = a ++ .proc (.asked t (.msg ⟨statusTy, n⟩)) :: b → ∃ c e, a = c ++ [e] ∧ IsNote e n t := by
  have h := reach_inv hr
  constructor
  · intro a e b n t hl hn
    have hne : e ≠ .gone := by rintro rfl; exact hn
    rcases h.once _ _ _ _ _ hl hn with ⟨c, rfl⟩ | ⟨c, rfl⟩
    · left
      have := h.rules.all (a ++ [e]) (.proc (.asked t (.msg ⟨statusTy, n⟩))) c (by rw [hl]; simp)
      exact ⟨fun hm => (this rfl).1 (by simp [hm]), c, rfl⟩
    · right
      have := h.rules.all (a ++ [e]) (.lost n) c (by rw [hl]; simp)
      refine ⟨?_, c, rfl⟩
      have := this.1
      simp only [List.mem_append, List.mem_singleton] at this
      exact this.resolve_right (Ne.symm hne)
  · intro a t n b hl
    exact ((h.rules.all _ _ _ hl) rfl).2

theorem told_some {a b : List Ev} {x y : Avail} {l : List Nat} (h : Hist Rule (a ++ .locked x y l :: b)) (hu : .unlocked ∉ b) :
    (∃ todo, phase (a ++ .locked x y l :: b) = some (x, y, todo) ∧ l.map (fun o => (o, x, y)) = toldIn b ++ todo.map fun o => (o, x, y)) ∧
    (∀ e ∈ b, (∀ o w, e ≠ .registered o w) ∧ (∀ o, e ≠ .unregistered o) ∧ ∀ v w m, e ≠ .locked v w m) := by
  induction b using snoc_induct with
  | nil =>
    exact ⟨⟨l, by simp [phase_append, phaseStep], by simp [toldIn]⟩, by simp⟩
  | snoc b e ih =>
    simp only [List.mem_append, List.mem_singleton, not_or] at hu
    have hsplit : a ++ .locked x y l :: (b ++ [e]) = (a ++ .locked x y l :: b) ++ [e] := by simp
    obtain ⟨⟨todo, h1, h2⟩, h3⟩ := ih (by rw [hsplit] at h; exact h.left) hu.1
    have hr := h.all (a ++ .locked x y l :: b) e [] (by simp)
    rw [hsplit, phase_append, h1]
    have key : (∀ o w, e ≠ .registered o w) ∧ (∀ o, e ≠ .unregistered o) ∧ ∀ v w m, e ≠ .locked v w m := by
      refine ⟨?_, ?_, ?_⟩ <;> (intros; rintro rfl; simp [Rule, h1] at hr)
    refine ⟨?_, ?_⟩
    · cases e with
      | told n o v w t =>
        simp only [Rule, h1] at hr
        obtain ⟨r, hr⟩ := hr
        simp only [Option.some.injEq, Prod.mk.injEq] at hr
        obtain ⟨rfl, rfl, rfl⟩ := hr
        exact ⟨r, by simp [phaseStep], by rw [h2]; simp [toldIn]⟩
      | unlocked => exact absurd rfl hu.2
      | registered o w => exact absurd rfl (key.1 o w)
      | unregistered o => exact absurd rfl (key.2.1 o)
      | locked v w m => exact absurd rfl (key.2.2 v w m)
      | _ => exact ⟨todo, by simp [phaseStep], by rw [h2]; simp [toldIn]⟩
    · intro e' he'
      rcases List.mem_append.1 he' with he' | he'
      · exact h3 _ he'
      · simp at he'; subst he'; exact key

/-- C125: from when the list is locked to tell a change until it is unlocked, exactly the observers then registered are told, in registration order, each once and with that change; nobody registers or unregisters meanwhile, and no other change is told. -/
theorem told_all (as : List Act) (s : State) (hr : run init as = some s) (a b c : List Ev) (x y : Avail) (l : List Nat)
    (hl : s.log = a ++ .locked x y l :: (b ++ .unlocked :: c)) (hu : .unlocked ∉ b) :
    l = listedIn a ∧ toldIn b = l.map (fun o => (o, x, y)) ∧
    (∀ e ∈ b, (∀ o w, e ≠ .registered o w) ∧ (∀ o, e ≠ .unregistered o) ∧ ∀ v w m, e ≠ .locked v w m) := by
  have h := reach_inv hr
  have hh : Hist Rule (a ++ .locked x y l :: b) := by
    have := h.rules; rw [hl] at this
    have e : a ++ .locked x y l :: (b ++ .unlocked :: c) = (a ++ .locked x y l :: b) ++ .unlocked :: c := by simp
    rw [e] at this; exact this.left
  obtain ⟨⟨todo, h1, h2⟩, h3⟩ := told_some hh hu
  have hun := h.rules.all (a ++ .locked x y l :: b) .unlocked c (by rw [hl]; simp)
  obtain ⟨x', y', hun⟩ := hun
  rw [h1] at hun
  simp only [Option.some.injEq, Prod.mk.injEq] at hun
  obtain ⟨-, -, rfl⟩ := hun
  exact ⟨(h.rules.all _ _ _ hl).2, by simpa using h2.symm, h3⟩

/-- C125: no notification is told outside such a walk. -/
theorem told_in_walk (as : List Act) (s : State) (hr : run init as = some s) (a b : List Ev) (n o : Nat) (x y : Avail) (t : Tid)
    (hl : s.log = a ++ .told n o x y t :: b) : ∃ c l d, a = c ++ .locked x y l :: d ∧ .unlocked ∉ d ∧ o ∈ l := by
  have h := reach_inv hr
  obtain ⟨r, hp⟩ := h.rules.all _ _ _ hl
  have hh : Hist Rule a := by have := h.rules; rw [hl] at this; exact this.left
  have key : ∀ a : List Ev, Hist Rule a → ∀ v w r, phase a = some (v, w, r) → ∃ c l d, a = c ++ .locked v w l :: d ∧ .unlocked ∉ d ∧ ∀ o ∈ r, o ∈ l := by
    intro a
    refine snoc_induct (motive := fun a => Hist Rule a → ∀ v w r, phase a = some (v, w, r) → ∃ c l d, a = c ++ .locked v w l :: d ∧ .unlocked ∉ d ∧ ∀ o ∈ r, o ∈ l) ?_ ?_ a
    · intro _ v w r hp; simp [phase] at hp
    · intro a e ih hh v w r hp
      rw [phase_append] at hp
      have same : ∀ r', phase a = some (v, w, r') → (∀ o ∈ r, o ∈ r') → e ≠ .unlocked → ∃ c l d, a ++ [e] = c ++ .locked v w l :: d ∧ .unlocked ∉ d ∧ ∀ o ∈ r, o ∈ l := by
        intro r' hp' hsub hne
        obtain ⟨c, l, d, rfl, h2, h3⟩ := ih hh.left _ _ _ hp'
        exact ⟨c, l, d ++ [e], by simp, by simp [h2, Ne.symm hne], fun o ho => h3 o (hsub o ho)⟩
      cases e with
      | locked v' w' l =>
        simp [phaseStep] at hp
        obtain ⟨rfl, rfl, rfl⟩ := hp
        exact ⟨a, _, [], rfl, by simp, fun _ h => h⟩
      | unlocked => simp [phaseStep] at hp
      | told n o v' w' t =>
        simp only [List.foldl_cons, List.foldl_nil, phaseStep, Option.map_eq_some_iff] at hp
        obtain ⟨⟨v1, w1, r1⟩, h1, h2⟩ := hp
        simp only [Prod.mk.injEq] at h2
        obtain ⟨rfl, rfl, rfl⟩ := h2
        exact same _ h1 (fun o ho => List.mem_of_mem_tail ho) (by simp)
      | _ => exact same r (by simpa [phaseStep] using hp) (fun _ h => h) (by simp)
  obtain ⟨c, l, d, h1, h2, h3⟩ := key a hh _ _ _ hp
  exact ⟨c, l, d, h1, h2, h3 o (by simp)⟩

/-- C125: each notification enters the queue at most once; those of changes enter it in the order in which they were told. -/
theorem queued_once_in_order (as : List Act) (s : State) (hr : run init as = some s) :
    (queued s.log).Nodup ∧ (∀ n ∈ queued s.log, n ∈ notes s.log) ∧ ((queued s.log).filter (· ∈ changes s.log)).Pairwise (· < ·) := by
  have h := reach_inv hr
  refine ⟨h.posts.nodup, ?_, h.posts.sorted⟩
  intro n hn
  rw [h.cnt]
  exact List.mem_range.2 (h.posts.qb n hn)

theorem began_sub_exits (t : Tid) (l : List Proc.Ev) : (Proc.beganBy t l).Sublist (Proc.exits l) := by
  induction l with
  | nil => exact .slnil
  | cons e l ih =>
    simp only [Proc.beganBy, Proc.exits] at ih ⊢
    cases e <;> simp only [List.filterMap_cons] <;> try exact ih
    · split
      · rename_i h; split at h
        · cases h
        · exact ih.cons _
      · rename_i h; split at h
        · cases h; exact ih.cons_cons _
        · cases h
    · exact ih.cons _

/-- C125: what a thread dispatches it dispatches in queue order: each notification at most once, those of changes in the order in which they were told. -/
theorem dispatched_in_order (as : List Act) (s : State) (hr : run init as = some s) (t : Tid) :
    (dispatched t s.log).Sublist (queued s.log) ∧ (dispatched t s.log).Nodup ∧ ((dispatched t s.log).filter (· ∈ changes s.log)).Pairwise (· < ·) := by
  have h := reach_inv hr
  obtain ⟨bs, hb⟩ := h.pr
  have hsub : (dispatched t s.log).Sublist (queued s.log) := by
    rw [dispatched, queued, h.pl, Proc.order_exactly_once bs s.p hb]
    obtain ⟨now, hnow, -⟩ := Proc.begun_is_run bs s.p hb t
    have h1 : (Proc.ranBy t s.p.log).Sublist (Proc.beganBy t s.p.log) := by rw [hnow]; exact List.sublist_append_left ..
    exact ((h1.trans (began_sub_exits t s.p.log)).trans (List.sublist_append_left ..)).filterMap noOf
  obtain ⟨q1, -, q3⟩ := queued_once_in_order as s hr
  exact ⟨hsub, q1.sublist hsub, q3.sublist (hsub.filter _)⟩

theorem mem_beganBy {t : Tid} {w : Proc.Work} {l : List Proc.Ev} : w ∈ Proc.beganBy t l ↔ .began t w ∈ l := by
  simp only [Proc.beganBy, List.mem_filterMap]
  constructor
  · rintro ⟨e, he, hw⟩
    cases e <;> simp at hw
    obtain ⟨rfl, rfl⟩ := hw; exact he
  · intro h; exact ⟨_, h, by simp⟩

theorem mem_ranBy {t : Tid} {w : Proc.Work} {l : List Proc.Ev} : w ∈ Proc.ranBy t l ↔ .ran t w ∈ l := by
  simp only [Proc.ranBy, List.mem_filterMap]
  constructor
  · rintro ⟨e, he, hw⟩
    cases e <;> simp at hw
    obtain ⟨rfl, rfl⟩ := hw; exact he
  · intro h; exact ⟨_, h, by simp⟩

theorem mem_two {n : Nat} {A B : Proc.Work} : ∀ {l : List Proc.Ev} {t u : Tid}, t ≠ u → Proc.Ev.began t A ∈ l → Proc.Ev.began u B ∈ l → noOf A = some n → noOf B = some n → ¬ ((Proc.exits l).filterMap noOf).Nodup := by
  intro l
  induction l with
  | nil => intro t u _ h; cases h
  | cons e l ih =>
    intro t u htu ht hu hA hB hN
    have hm : ∀ {v W}, Proc.Ev.began v W ∈ l → noOf W = some n → n ∈ (Proc.exits l).filterMap noOf := by
      intro v W hv hW
      exact List.mem_filterMap.2 ⟨W, (began_sub_exits v l).subset (mem_beganBy.2 hv), hW⟩
    have hcons : Proc.exits (e :: l) = Proc.exits [e] ++ Proc.exits l := by simp [Proc.exits, ← List.filterMap_append]
    rw [hcons, List.filterMap_append, List.nodup_append] at hN
    obtain ⟨-, hN2, hN3⟩ := hN
    rcases List.mem_cons.1 ht with h1 | h1
    · subst h1
      rcases List.mem_cons.1 hu with h2 | h2
      · cases h2; exact htu rfl
      · exact hN3 n (by simp [Proc.exits, hA]) n (hm h2 hB) rfl
    · rcases List.mem_cons.1 hu with h2 | h2
      · subst h2
        exact hN3 n (by simp [Proc.exits, hB]) n (hm h1 hA) rfl
      · exact ih htu h1 h2 hA hB hN2

/-- C125: no two threads dispatch the same notification. -/
theorem one_dispatcher (as : List Act) (s : State) (hr : run init as = some s) (t u : Tid) (n : Nat)
    (ht : n ∈ dispatched t s.log) (hu : n ∈ dispatched u s.log) : t = u := by
  have h := reach_inv hr
  obtain ⟨bs, hb⟩ := h.pr
  obtain ⟨A, hA, hA'⟩ := List.mem_filterMap.1 ht
  obtain ⟨B, hB, hB'⟩ := List.mem_filterMap.1 hu
  rw [h.pl] at hA hB
  have hbeg : ∀ v W, W ∈ Proc.ranBy v s.p.log → Proc.Ev.began v W ∈ s.p.log := by
    intro v W hW
    obtain ⟨now, hnow, -⟩ := Proc.begun_is_run bs s.p hb v
    exact mem_beganBy.1 (by rw [hnow]; simp [hW])
  have hq := (queued_once_in_order as s hr).1
  rw [queued, h.pl, Proc.order_exactly_once bs s.p hb, List.filterMap_append, List.nodup_append] at hq
  exact Classical.byContradiction fun hne => mem_two hne (hbeg _ _ hA) (hbeg _ _ hB) hA' hB' hq.1

/-- C125: a handler is called with a status message only by the dispatch of a notification, which was made and queued before. -/
theorem handled (as : List Act) (s : State) (hr : run init as = some s) (t : Tid) (g k sl : Nat) (n : Nat)
    (hc : .proc (.sig t g (.called k sl ⟨statusTy, n⟩)) ∈ s.log) : n ∈ dispatched t s.log ∧ n ∈ queued s.log ∧ n ∈ notes s.log := by
  have h := reach_inv hr
  obtain ⟨bs, hb⟩ := h.pr
  have hm : Proc.Ev.sig t g (.called k sl ⟨statusTy, n⟩) ∈ s.p.log := by rw [← h.pl]; exact List.mem_filterMap.2 ⟨_, hc, rfl⟩
  obtain ⟨l, m, hl⟩ := List.append_of_mem hm
  obtain ⟨-, d, l1, l2, h1, -⟩ := Proc.dispatch_rules bs s.p hb _ _ _ hl
  have hran := (Proc.looked bs s.p hb).2 t d ⟨statusTy, n⟩ (some g) (by rw [hl, h1]; simp)
  have h3 : n ∈ dispatched t s.log := by
    rw [dispatched, h.pl]
    exact List.mem_filterMap.2 ⟨_, mem_ranBy.2 hran, by simp [noOf]⟩
  have h4 := (dispatched_in_order as s hr t).1.subset h3
  exact ⟨h3, h4, (queued_once_in_order as s hr).2.1 n h4⟩

/-- C125, partial: when the thread that made a notification is done with it, the notification has been queued, or the processor was stopped meanwhile; or it was refused, the processor being stopped or having no handler for the status. Missing: that it will be dispatched; see `no_handler_yet`, `lost_by_stop`. -/
theorem outcome_partial (as : List Act) (s : State) (hr : run init as = some s) (t : Tid) (n : Nat)
    (ha : .proc (.asked t (.msg ⟨statusTy, n⟩)) ∈ s.log) (hc : Proc.canCall s.p t = true) :
    ∃ r l m, s.p.log = l ++ .result t (.msg ⟨statusTy, n⟩) r :: m ∧ ∃ x y, l = x ++ .asked t (.msg ⟨statusTy, n⟩) :: y ∧
      if r then Proc.closedOf x = false ∧ (Proc.Ev.entered t (.msg ⟨statusTy, n⟩) ∈ y ∨ ∃ u, Proc.Ev.closed u ∈ y)
      else Proc.Ev.entered t (.msg ⟨statusTy, n⟩) ∉ y ∧ (Proc.closedOf l = true ∨ Proc.handlersOf statusTy l = []) := by
  have h := reach_inv hr
  obtain ⟨bs, hb⟩ := h.pr
  rcases h.posts.ret t n ha with hp | ⟨r, hres⟩
  · rw [Proc.posting_user (by rw [← Proc.canCall_iff]; exact hc)] at hp; cases hp
  · have : Proc.Ev.result t (.msg ⟨statusTy, n⟩) r ∈ s.p.log := by
      rw [← h.pl]; exact List.mem_filterMap.2 ⟨_, hres, rfl⟩
    obtain ⟨l, m, hl⟩ := List.append_of_mem this
    refine ⟨r, l, m, hl, ?_⟩
    cases r with
    | true =>
      obtain ⟨x, y, h1, h2, -, h3⟩ := Proc.true_means_queued_partial bs s.p hb l m t _ hl
      exact ⟨x, y, h1, by simp [h2, h3]⟩
    | false =>
      obtain ⟨x, y, h1, h2, h3⟩ := Proc.false_means_refused bs s.p hb l m t _ hl
      refine ⟨x, y, h1, ?_⟩
      rw [if_neg (by simp)]
      refine ⟨?_, ?_⟩
      · intro hm
        have : Proc.Ev.entered t (.msg ⟨statusTy, n⟩) ∈ Proc.callEvs t y := List.mem_filter.2 ⟨hm, by simp [Proc.callEv]⟩
        rw [h2] at this; cases this
      · rcases h3 with h3 | ⟨m', hm', h3⟩
        · exact Or.inl h3
        · cases hm'; exact Or.inr h3

/-- One step of the processor, as far as notification `n` is concerned. -/
theorem proc_settled {p p' : Proc.State} {a : Proc.Act} {n : Nat} (hw : ∀ t, Proc.wf (p.stk t) = true) (hs : Proc.step p a = some p')
    (hn : ∀ t, posting (p.stk t) ≠ some ⟨statusTy, n⟩) (ha : ∀ t, a ≠ .callPost t ⟨statusTy, n⟩) :
    (∀ t, posting (p'.stk t) ≠ some ⟨statusTy, n⟩) ∧ (n ∈ (Proc.entries (p'.log.drop p.log.length)).filterMap noOf → False) := by
  obtain ⟨b, hb, hps⟩ := Proc.post_step hw hs
  rw [hb, List.drop_left]
  have ho := (Proc.step_other hs).1
  refine ⟨?_, ?_⟩
  · intro t
    by_cases ht : t = a.tid
    · subst ht
      cases hps with
      | refused m ha h1 h2 => simp [h2]
      | called m ha' h1 h2 => rw [h2]; rintro h; cases h; exact ha _ ha'
      | goes m h1 h2 => rw [h2, ← h1]; exact hn _
      | returns m r h1 h2 => simp [h2]
      | other h1 h2 => simp [h2]
    · rw [(ho t ht).1]; exact hn t
  · have key : ∀ m : Proc.Msg, posting (p.stk a.tid) = some m → n ∉ [Proc.Work.msg m].filterMap noOf := by
      intro m hm hmem
      obtain ⟨w, hw, hwn⟩ := List.mem_filterMap.1 hmem
      simp at hw; subst hw
      simp only [noOf] at hwn
      split at hwn
      · cases hwn
        apply hn a.tid
        rw [hm]; rename_i hty; rw [← hty]
      · cases hwn
    cases hps with
    | refused m ha h1 h2 hb => subst hb; simp [Proc.entries]
    | called m ha' h1 h2 hb => subst hb; simp [Proc.entries]
    | goes m h1 h2 he => rw [he]; simp
    | returns m r h1 h2 he =>
      rcases he with he | he <;> rw [he]
      · simp
      · exact key m h1
    | other h1 h2 he =>
      rcases he with he | ⟨k, he⟩ <;> rw [he] <;> simp [noOf]

/-- Nobody is posting notification `n`, which has been made. -/
def Settled (n : Nat) (s : State) : Prop := n < s.next ∧ ∀ t, posting (s.p.stk t) ≠ some ⟨statusTy, n⟩

theorem onProc_settled {s s' : State} {a : Proc.Act} {n : Nat} (hw : ∀ t, Proc.wf (s.p.stk t) = true) (h : onProc s a = some s') (hn : Settled n s)
    (ha : ∀ t, a ≠ .callPost t ⟨statusTy, n⟩) : Settled n s' ∧ (n ∈ queued s'.log → n ∈ queued s.log) := by
  simp only [onProc, Option.map_eq_some_iff] at h
  obtain ⟨p', hp, rfl⟩ := h
  obtain ⟨h1, h2⟩ := proc_settled hw hp hn.2 ha
  refine ⟨⟨hn.1, h1⟩, ?_⟩
  simp only [queued_append, queued_map, List.mem_append]
  rintro (h | h)
  · exact h
  · exact absurd h h2

theorem post_settled {s s' : State} {t : Tid} {n : Nat} (hw : ∀ t, Proc.wf (s.p.stk t) = true) (h : post s t = some s') (hn : Settled n s) :
    Settled n s' ∧ (n ∈ queued s'.log → n ∈ queued s.log) := by
  unfold post at h
  split at h
  · simp only [Option.map_eq_some_iff] at h
    obtain ⟨s1, h1, rfl⟩ := h
    obtain ⟨k1, k2⟩ := onProc_settled hw h1 hn (by intro u hu; cases hu; exact absurd hn.1 (Nat.lt_irrefl _))
    exact ⟨⟨Nat.lt_succ_of_lt k1.1, k1.2⟩, k2⟩
  · cases h
    refine ⟨⟨Nat.lt_succ_of_lt hn.1, hn.2⟩, ?_⟩
    simp [State.note, queued, procOf]

theorem settled_step {s s' : State} {a : Act} {n : Nat} (h : Inv s) (hs : step s a = some s') (hn : Settled n s) :
    Settled n s' ∧ (n ∈ queued s'.log → n ∈ queued s.log) := by
  obtain ⟨bs, hbs⟩ := h.pr
  have hw := (Proc.full bs s.p hbs).base.wf
  simp only [step] at hs
  split at hs
  · cases hs
  have plain : ∀ (e : Ev) (s1 : State), (∀ x, e ≠ .proc x) → s1.p = s.p → s1.next = s.next → s1.log = s.log ++ [e] → Settled n s1 ∧ (n ∈ queued s1.log → n ∈ queued s.log) := by
    intro e s1 he h1 h2 h3
    refine ⟨⟨by rw [h2]; exact hn.1, by rw [h1]; exact hn.2⟩, ?_⟩
    rw [h3]
    have : queued [e] = [] := by cases e <;> simp_all [queued, procOf, Proc.entries]
    simp [this]
  have posted : ∀ (e : Ev) (s1 s2 : State) (t : Tid), (∀ x, e ≠ .proc x) → s1.p = s.p → s1.next = s.next → s1.log = s.log ++ [e] → post s1 t = some s2 → Settled n s2 ∧ (n ∈ queued s2.log → n ∈ queued s.log) := by
    intro e s1 s2 t he h1 h2 h3 h4
    obtain ⟨k1, k2⟩ := plain e s1 he h1 h2 h3
    obtain ⟨k3, k4⟩ := post_settled (by rw [h1]; exact hw) h4 k1
    exact ⟨k3, fun h => k2 (k4 h)⟩
  cases a <;> simp only at hs
  case register o =>
    split at hs
    · cases hs; exact plain _ _ (by simp) rfl rfl rfl
    · cases hs
  case greet o t =>
    split at hs
    · exact posted (.greeted s.next o t) { s.note (.greeted s.next o t) with greets := s.greets.erase o } s' t (by simp) rfl rfl rfl hs
    · cases hs
  case unregister o =>
    split at hs
    · cases hs; exact plain _ _ (by simp) rfl rfl rfl
    · cases hs
  case change x y =>
    cases hs
    unfold change
    split
    · exact ⟨hn, id⟩
    · exact plain _ _ (by simp) rfl rfl rfl
  case lock i t =>
    unfold lock at hs
    split at hs
    · split at hs
      · cases hs; exact plain _ _ (by simp) rfl rfl rfl
      · cases hs
    · cases hs
  case tell =>
    unfold tell at hs
    split at hs
    · cases hs
    · rename_i w hw'
      split at hs
      · unfold tellNext at hs
        split at hs
        · cases hs; exact plain _ _ (by simp) rfl rfl rfl
        · rename_i o rest ht
          exact posted (.told s.next o w.old w.new w.by_) { s.note (.told s.next o w.old w.new w.by_) with walk := some { w with todo := rest } } s' w.by_ (by simp) rfl rfl rfl hs
      · cases hs
  case drop => cases hs; exact plain _ _ (by simp) rfl rfl rfl
  case proc a =>
    split at hs
    · rename_i hc
      refine onProc_settled hw hs hn ?_
      rintro t rfl
      simp [own] at hc
    · cases hs

/-- C125: a notification that is not in the queue's history when nobody is posting it never gets there: what was refused, dropped by a stop, or made when the processor was gone is not made up for. -/
theorem settled_for_good (as : List Act) (s : State) (hr : run init as = some s) (n : Nat) (hn : n ∈ notes s.log)
    (hp : ∀ t, Proc.canCall s.p t = true ∨ .proc (.asked t (.msg ⟨statusTy, n⟩)) ∉ s.log) (hq : n ∉ queued s.log) (as' : List Act) (s' : State) (hr' : run s as' = some s') :
    n ∉ queued s'.log := by
  have h := reach_inv hr
  have h0 : Settled n s := by
    refine ⟨by have := hn; rw [h.cnt] at this; exact List.mem_range.1 this, ?_⟩
    intro t ht
    rcases hp t with hc | hc
    · rw [Proc.posting_user (by rw [← Proc.canCall_iff]; exact hc)] at ht; cases ht
    · exact hc (h.posts.asked t _ ht rfl)
  clear hn hp hr
  induction as' generalizing s with
  | nil => cases hr'; exact hq
  | cons a as ih =>
    simp only [run, Option.bind_eq_some_iff] at hr'
    obtain ⟨u, hu, hr'⟩ := hr'
    obtain ⟨k1, k2⟩ := settled_step h hu h0
    exact ih u (fun hm => hq (k2 hm)) hr' (inv_step h hu) k1

/-! ### Every change and every registration is accounted for -/

/-- Of the processor, or a loss. -/
def Quiet (b : List Ev) : Prop := ∀ e ∈ b, (∃ x, e = .proc x) ∨ ∃ n, e = .lost n

theorem quiet_status {b : List Ev} (h : Quiet b) (acc) : b.foldl statusStep acc = acc := by
  induction b generalizing acc with
  | nil => rfl
  | cons e b ih =>
    rw [List.foldl_cons, ih (fun x hx => h x (by simp [hx]))]
    rcases h e (by simp) with ⟨x, rfl⟩ | ⟨n, rfl⟩ <;> rfl

theorem quiet_lists {b : List Ev} (h : Quiet b) : changedIn b = [] ∧ lockedIn b = [] ∧ happy b = [] ∧ greetedIn b = [] := by
  refine ⟨?_, ?_, ?_, ?_⟩ <;>
  · simp only [changedIn, lockedIn, happy, greetedIn, List.filterMap_eq_nil_iff]
    intro e he
    rcases h e he with ⟨x, rfl⟩ | ⟨n, rfl⟩ <;> rfl

/-- What an event must obey: a registration sees the status; a change is one. -/
def Told (l : List Ev) : Ev → Prop
  | .registered _ a => a = statusOf l
  | .changed _ y => y ≠ statusOf l
  | _ => True

structure News (s : State) : Prop where
  st : statusOf s.log = s.status
  gr : (happy s.log).Perm (greetedIn s.log ++ s.greets)
  wt : (changedIn s.log).Perm (lockedIn s.log ++ s.waiting)
  rl : Hist Told s.log

theorem news_post {s s' : State} {t : Tid} (h : News s) (hs : post s t = some s') : News s' := by
  have key : ∃ b, Quiet b ∧ s'.log = s.log ++ b ∧ s'.status = s.status ∧ s'.greets = s.greets ∧ s'.waiting = s.waiting := by
    unfold post at hs
    split at hs
    · simp only [Option.map_eq_some_iff, onProc] at hs
      obtain ⟨s1, ⟨p', hp, rfl⟩, rfl⟩ := hs
      exact ⟨_, by intro e he; obtain ⟨x, -, rfl⟩ := List.mem_map.1 he; exact Or.inl ⟨x, rfl⟩, rfl, rfl, rfl, rfl⟩
    · cases hs
      exact ⟨[.lost s.next], by simp [Quiet], rfl, rfl, rfl, rfl⟩
  obtain ⟨b, hq, h1, h2, h3, h4⟩ := key
  obtain ⟨q1, q2, q3, q4⟩ := quiet_lists hq
  refine ⟨?_, ?_, ?_, ?_⟩
  · rw [h1, h2, statusOf, List.foldl_append, quiet_status hq]; exact h.st
  · rw [h1, h3]; simpa [happy, greetedIn, List.filterMap_append, show b.filterMap _ = _ from q3, show b.filterMap _ = _ from q4] using h.gr
  · rw [h1, h4]; simpa [changedIn, lockedIn, List.filterMap_append, show b.filterMap _ = _ from q1, show b.filterMap _ = _ from q2] using h.wt
  · rw [h1]
    refine Hist.free h.rl ?_
    intro l e he
    rcases hq e he with ⟨x, rfl⟩ | ⟨n, rfl⟩ <;> trivial

theorem perm_eraseIdx {α : Type} : ∀ (l : List α) {i : Nat} (h : i < l.length), l.Perm (l[i] :: l.eraseIdx i)
  | a :: l, 0, _ => by simp
  | a :: l, i + 1, h => by
    have := perm_eraseIdx l (i := i) (by simpa using h)
    simp only [List.getElem_cons_succ, List.eraseIdx_cons_succ]
    exact (this.cons a).trans (List.Perm.swap ..)

theorem news_step {s s' : State} {a : Act} (h : News s) (hs : step s a = some s') : News s' := by
  simp only [step] at hs
  split at hs
  · cases hs
  cases a <;> simp only at hs
  case register o =>
    split at hs
    · cases hs
      refine ⟨?_, ?_, ?_, Hist.one h.rl h.st.symm⟩
      · simpa [State.note, statusOf, statusStep] using h.st
      · by_cases hv : s.status = .available
        · have := h.gr.append_right [o]
          simpa [State.note, happy, greetedIn, hv] using this
        · have hx : (happy [.registered o s.status]) = [] := by
            cases hc : s.status <;> simp_all [happy]
          have e : happy (s.log ++ [.registered o s.status]) = happy s.log := by
            have : happy (s.log ++ [.registered o s.status]) = happy s.log ++ happy [.registered o s.status] := by simp only [happy, List.filterMap_append]
            rw [this, hx, List.append_nil]
          simp only [State.note, if_neg hv, e]
          simpa [greetedIn] using h.gr
      · simpa [State.note, changedIn, lockedIn] using h.wt
    · cases hs
  case greet o t =>
    split at hs
    · rename_i hc
      refine news_post (s := { s.note (.greeted s.next o t) with greets := s.greets.erase o }) ⟨?_, ?_, ?_, Hist.one h.rl trivial⟩ hs
      · simpa [State.note, statusOf, statusStep] using h.st
      · have hp := h.gr.trans ((List.perm_cons_erase hc.1).append_left _)
        simpa [State.note, happy, greetedIn] using hp
      · simpa [State.note, changedIn, lockedIn] using h.wt
    · cases hs
  case unregister o =>
    split at hs
    · cases hs
      exact ⟨by simpa [State.note, statusOf, statusStep] using h.st, by simpa [State.note, happy, greetedIn] using h.gr,
        by simpa [State.note, changedIn, lockedIn] using h.wt, Hist.one h.rl trivial⟩
    · cases hs
  case change x y =>
    cases hs
    unfold change
    split
    · exact h
    · rename_i hne
      refine ⟨by simp [State.note, statusOf, statusStep], by simpa [State.note, happy, greetedIn] using h.gr, ?_, Hist.one h.rl (by rw [Told, h.st]; exact hne)⟩
      have := h.wt.append_right [(x, y)]
      simpa [State.note, changedIn, lockedIn] using this
  case lock i t =>
    unfold lock at hs
    split at hs
    · rename_i x y hw hi
      split at hs
      · cases hs
        refine ⟨by simpa [State.note, statusOf, statusStep] using h.st, by simpa [State.note, happy, greetedIn] using h.gr, ?_, Hist.one h.rl trivial⟩
        obtain ⟨hlt, he⟩ := List.getElem?_eq_some_iff.1 hi
        have hp : s.waiting.Perm ((x, y) :: s.waiting.eraseIdx i) := by
          rw [← he]; exact perm_eraseIdx _ hlt
        have := h.wt.trans (hp.append_left (lockedIn s.log))
        simpa [State.note, changedIn, lockedIn] using this
      · cases hs
    · cases hs
  case tell =>
    unfold tell at hs
    split at hs
    · cases hs
    · rename_i w hw
      split at hs
      · unfold tellNext at hs
        split at hs
        · cases hs
          exact ⟨by simpa [State.note, statusOf, statusStep] using h.st, by simpa [State.note, happy, greetedIn] using h.gr,
            by simpa [State.note, changedIn, lockedIn] using h.wt, Hist.one h.rl trivial⟩
        · rename_i o rest ht
          exact news_post (s := { s.note (.told s.next o w.old w.new w.by_) with walk := some { w with todo := rest } })
            ⟨by simpa [State.note, statusOf, statusStep] using h.st, by simpa [State.note, happy, greetedIn] using h.gr,
              by simpa [State.note, changedIn, lockedIn] using h.wt, Hist.one h.rl trivial⟩ hs
      · cases hs
  case drop =>
    cases hs
    exact ⟨by simpa [State.note, statusOf, statusStep] using h.st, by simpa [State.note, happy, greetedIn] using h.gr,
      by simpa [State.note, changedIn, lockedIn] using h.wt, Hist.one h.rl trivial⟩
  case proc a =>
    split at hs
    · simp only [Option.map_eq_some_iff, onProc] at hs
      obtain ⟨p', hp, rfl⟩ := hs
      have hq : Quiet ((p'.log.drop s.p.log.length).map Ev.proc) := by
        intro e he; obtain ⟨x, -, rfl⟩ := List.mem_map.1 he; exact Or.inl ⟨x, rfl⟩
      obtain ⟨q1, q2, q3, q4⟩ := quiet_lists hq
      refine ⟨?_, ?_, ?_, ?_⟩
      · simp only [statusOf, List.foldl_append, quiet_status hq]; exact h.st
      · simp only [happy, greetedIn, List.filterMap_append] at q3 q4 ⊢
        rw [q3, q4]; simpa [happy, greetedIn] using h.gr
      · simp only [changedIn, lockedIn, List.filterMap_append] at q1 q2 ⊢
        rw [q1, q2]; simpa [changedIn, lockedIn] using h.wt
      · refine Hist.free h.rl ?_
        intro l e he
        rcases hq e he with ⟨x, rfl⟩ | ⟨n, rfl⟩ <;> trivial
    · cases hs

theorem reach_news {as : List Act} {s : State} (hr : run init as = some s) : News s := by
  have key : ∀ (as : List Act) (u s : State), News u → run u as = some s → News s := by
    intro as
    induction as with
    | nil => intro u s h hr; cases hr; exact h
    | cons a as ih =>
      intro u s h hr
      simp only [run, Option.bind_eq_some_iff] at hr
      obtain ⟨v, hv, hr⟩ := hr
      exact ih v s (news_step h hv) hr
  exact key as init s ⟨rfl, List.Perm.refl _, List.Perm.refl _, Hist.nil⟩ hr

/-- C125: every registration that sees the service available tells so once, the others do not; what it sees is the requester's status then. Every change is told once (see `told_all`) or still waits for the list; a change is a status that was not the requester's before. -/
theorem accounted (as : List Act) (s : State) (hr : run init as = some s) :
    (happy s.log).Perm (greetedIn s.log ++ s.greets) ∧ (changedIn s.log).Perm (lockedIn s.log ++ s.waiting) ∧
    (∀ l e m, s.log = l ++ e :: m → (∀ o a, e = .registered o a → a = statusOf l) ∧ ∀ x y, e = .changed x y → y ≠ statusOf l) := by
  have h := reach_news hr
  refine ⟨h.gr, h.wt, fun l e m hl => ?_⟩
  have := h.rl.all _ _ _ hl
  exact ⟨by rintro o a rfl; exact this, by rintro x y rfl; exact this⟩

/-- C125: a change that is told is one that waited; a status that was not the requester's is told. -/
theorem change_waits (s : State) (x y : Avail) (hu : s.p.ub = false) :
    ∃ s', step s (.change x y) = some s' ∧ s'.status = y ∧ (y ≠ s.status → s'.waiting = s.waiting ++ [(x, y)]) ∧ (y = s.status → s' = s) := by
  refine ⟨change s x y, by simp [step, hu], ?_, ?_, ?_⟩
  · unfold change; split
    · rename_i h; exact h.symm
    · rfl
  · intro h; simp [change, h]
  · intro h; simp [change, h]

/-! ### The list's lock and the processor's -/

/-- The thread that acts. -/
def Act.actor : Act → Option Tid
  | .greet _ t => some t
  | .lock _ t => some t
  | .proc a => some a.tid
  | _ => none

theorem waits_no_call {p : Proc.State} {t u : Tid} (h : Proc.WaitsFor p t u) : Proc.canCall p t = false := by
  simp only [Proc.WaitsFor] at h
  repeat' split at h
  all_goals try (cases h; done)
  all_goals (have hst := ‹p.stk t = _›; simp [Proc.canCall, hst, Proc.Frame.isUser])

theorem onProc_waits {s s' : State} {a : Proc.Act} {t u : Tid} (h : ∃ bs, Proc.run Proc.init bs = some s.p) (hw : Proc.WaitsFor s.p t u) (hu : a.tid ≠ u)
    (hs : onProc s a = some s') : s'.walk = s.walk ∧ Proc.WaitsFor s'.p t u := by
  simp only [onProc, Option.map_eq_some_iff] at hs
  obtain ⟨p', hp, rfl⟩ := hs
  refine ⟨rfl, ?_⟩
  obtain ⟨bs, hb⟩ := h
  have hf := Proc.full bs s.p hb
  have hne := (Proc.waits_kind hf.base (Proc.EmI_run bs s.p hb) hw).1
  by_cases ht : a.tid = t
  · subst ht
    exact (Proc.waiting_stands hne (fun hm => (hf.base.own _).1 hm) hw hp).elim
  · exact Proc.waits_keeps hf hw hp ht hu

theorem stuck_step {s s' : State} {a : Act} {t u : Tid} (h : Inv s) (ht : walks s t = true) (hw : Proc.WaitsFor s.p t u) (hu : a.actor ≠ some u) (hs : step s a = some s') :
    walks s' t = true ∧ Proc.WaitsFor s'.p t u := by
  have hcc := waits_no_call hw
  have hwk : s.walk ≠ none := by intro e; simp [walks, e] at ht
  simp only [step] at hs
  split at hs
  · cases hs
  cases a <;> simp only at hs
  case register o => simp at hs
  case greet o v =>
    split at hs
    · unfold post at hs
      split at hs
      · simp only [Option.map_eq_some_iff] at hs
        obtain ⟨s1, h1, rfl⟩ := hs
        obtain ⟨k1, k2⟩ := onProc_waits (s := { s.note (.greeted s.next o v) with greets := s.greets.erase o }) (a := .callPost v ⟨statusTy, s.next⟩) (t := t) (u := u) h.pr hw (by intro e; apply hu; simp [Act.actor]; simpa [Proc.Act.tid] using e) h1
        have k1 : s1.walk = s.walk := k1
        refine ⟨?_, k2⟩
        simp only [walks, k1]; exact ht
      · cases hs; exact ⟨ht, hw⟩
    · cases hs
  case unregister o => simp at hs
  case change x y =>
    cases hs
    unfold change
    split
    · exact ⟨ht, hw⟩
    · exact ⟨ht, hw⟩
  case lock i v =>
    unfold lock at hs
    split at hs
    · exact absurd (by assumption) hwk
    · cases hs
  case tell =>
    unfold tell at hs
    split at hs
    · cases hs
    · rename_i w hw'
      have : w.by_ = t := by simpa [walks, hw'] using ht
      rw [this, hcc] at hs
      simp at hs
  case drop => cases hs; exact ⟨ht, hw⟩
  case proc a =>
    split at hs
    · obtain ⟨k1, k2⟩ := onProc_waits (t := t) (u := u) h.pr hw (by intro e; apply hu; simp [Act.actor, e]) hs
      refine ⟨?_, k2⟩
      simp only [walks, k1]; exact ht
    · cases hs

/-- C125: while the thread that tells a change waits for a lock of thread `u`, no call of register or unregister gets through, whatever the other threads do. If `u` itself is in such a call, that is a deadlock: see `handler_registers`. -/
theorem register_waits (as : List Act) (s : State) (hr : run init as = some s) (t u : Tid) (ht : walks s t = true) (hw : Proc.WaitsFor s.p t u)
    (as' : List Act) (s' : State) (hr' : run s as' = some s') (hu : ∀ a ∈ as', a.actor ≠ some u) :
    (∀ o, step s' (.register o) = none ∧ step s' (.unregister o) = none) ∧ walks s' t = true ∧ Proc.WaitsFor s'.p t u := by
  have h := reach_inv hr
  clear hr
  induction as' generalizing s with
  | nil =>
    have hwk : s.walk ≠ none := by intro e; simp [walks, e] at ht
    obtain rfl : s = s' := by simpa [run] using hr'
    exact ⟨fun o => by simp [step, hwk], ht, hw⟩
  | cons a as ih =>
    simp only [run, Option.bind_eq_some_iff] at hr'
    obtain ⟨v, hv, hr'⟩ := hr'
    obtain ⟨k1, k2⟩ := stuck_step h ht hw (hu a (by simp)) hv
    exact ih v k1 k2 hr' (fun b hb => hu b (by simp [hb])) (inv_step h hv)

/-! ### Witnesses -/

theorem of_any {o : Option State} {P : State → Bool} (h : o.any P = true) : ∃ s, o = some s ∧ P s = true := by
  cases o with
  | none => simp at h
  | some s => exact ⟨s, rfl, by simpa using h⟩

/-- Thread `t` connects a handler for the status. -/
def connectBy (t : Tid) : List Act := (Proc.connectBy t statusTy).map .proc
/-- Thread `t` goes on with a `post` that has begun. -/
def goOn (t : Tid) : List Act := [.proc (.lockMap t), .proc (.postCheck t), .proc (.asyncCheck t), .proc (.pushCheck t), .proc (.insert t)]
/-- Thread `t` takes a message and gets to the first handler. -/
def dispatchBy (t : Tid) : List Act := (Proc.dispatchBy t).map .proc

/-- Two observers; a change is told and dispatched; one registers later and is greeted. -/
def sample : List Act :=
  connectBy 1 ++ [.register 5, .register 6, .change .unknown .available, .lock 0 1, .tell] ++ goOn 1 ++ [.tell] ++ goOn 1 ++ [.tell, .register 7, .greet 7 3] ++ goOn 3 ++
    .proc (.callRun 2 .forever) :: dispatchBy 2

example : ∃ s, run init sample = some s ∧ notes s.log = [0, 1, 2] ∧ queued s.log = [0, 1, 2] ∧ changes s.log = [0, 1] ∧ dispatched 2 s.log = [0] ∧ s.p.ub = false := by
  obtain ⟨s, h, h2⟩ := of_any (o := run init sample) (P := fun s => decide (notes s.log = [0, 1, 2] ∧ queued s.log = [0, 1, 2] ∧ changes s.log = [0, 1] ∧ dispatched 2 s.log = [0] ∧ s.p.ub = false)) (by decide +kernel)
  exact ⟨s, h, by simpa using h2⟩

/-- `told_all`: a walk that tells two. -/
example : ∃ s a b c, run init sample = some s ∧ s.log = a ++ .locked .unknown .available [5, 6] :: (b ++ .unlocked :: c) ∧ .unlocked ∉ b ∧ toldIn b = [(5, .unknown, .available), (6, .unknown, .available)] := by
  obtain ⟨s, h, h2⟩ := of_any (o := run init sample) (P := fun s => decide (∃ i ∈ List.range 60, ∃ j ∈ List.range 60, s.log = s.log.take i ++ .locked .unknown .available [5, 6] :: ((s.log.drop (i + 1)).take j ++ .unlocked :: s.log.drop (i + j + 2)) ∧
    .unlocked ∉ (s.log.drop (i + 1)).take j ∧ toldIn ((s.log.drop (i + 1)).take j) = [(5, .unknown, .available), (6, .unknown, .available)])) (by decide +kernel)
  simp only [decide_eq_true_eq] at h2
  obtain ⟨i, -, j, -, h3⟩ := h2
  exact ⟨s, _, _, _, h, h3⟩

/-- `handled`: the handler is called with notification 0. -/
example : ∃ s, run init sample = some s ∧ .proc (.sig 2 0 (.called 0 0 ⟨statusTy, 0⟩)) ∈ s.log := by
  obtain ⟨s, h, h2⟩ := of_any (o := run init sample) (P := fun s => decide (.proc (.sig 2 0 (.called 0 0 ⟨statusTy, 0⟩)) ∈ s.log)) (by decide +kernel)
  exact ⟨s, h, by simpa using h2⟩

/-- `accounted`: one change told, one registration told the status. -/
example : ∃ s, run init sample = some s ∧ changedIn s.log = [(.unknown, .available)] ∧ lockedIn s.log = [(.unknown, .available)] ∧ happy s.log = [7] ∧ greetedIn s.log = [7] ∧ statusOf s.log = .available := by
  obtain ⟨s, h, h2⟩ := of_any (o := run init sample) (P := fun s => decide (changedIn s.log = [(.unknown, .available)] ∧ lockedIn s.log = [(.unknown, .available)] ∧ happy s.log = [7] ∧ greetedIn s.log = [7] ∧ statusOf s.log = .available)) (by decide +kernel)
  exact ⟨s, h, by simpa using h2⟩

/-- `outcome_partial`: thread 1 is done with notification 0. -/
example : ∃ s, run init sample = some s ∧ .proc (.asked 1 (.msg ⟨statusTy, 0⟩)) ∈ s.log ∧ Proc.canCall s.p 1 = true := by
  obtain ⟨s, h, h2⟩ := of_any (o := run init sample) (P := fun s => decide (.proc (.asked 1 (.msg ⟨statusTy, 0⟩)) ∈ s.log ∧ Proc.canCall s.p 1 = true)) (by decide +kernel)
  exact ⟨s, h, by simpa using h2⟩

/-- A thread asks the processor to post. -/
def isAsked : Ev → Bool
  | .proc (.asked ..) => true
  | _ => false

/-- Nobody has connected a handler when the service becomes available: `post` refuses, and the handler connected next never hears of it. -/
def early : List Act := [.register 5, .change .unknown .available, .lock 0 1, .tell, .proc (.lockMap 1), .tell] ++ connectBy 1

/-- C125 does not hold in full: a handler connected after the notification was made never gets it, though the service is available and nothing is stopped. -/
theorem no_handler_yet : ∃ s, run init early = some s ∧ s.status = .available ∧ s.listed = [5] ∧ .proc (.result 1 (.msg ⟨statusTy, 0⟩) false) ∈ s.log ∧
    ∀ as' s', run s as' = some s' → 0 ∉ queued s'.log := by
  obtain ⟨s, h, h2⟩ := of_any (o := run init early) (P := fun s => decide (s.status = .available ∧ s.listed = [5] ∧ .proc (.result 1 (.msg ⟨statusTy, 0⟩) false) ∈ s.log ∧
    0 ∈ notes s.log ∧ 0 ∉ queued s.log ∧ Proc.canCall s.p 1 = true ∧ ∀ e ∈ s.log, e = .proc (.asked 1 (.msg ⟨statusTy, 0⟩)) ∨ isAsked e = false)) (by decide +kernel)
  simp only [decide_eq_true_eq] at h2
  obtain ⟨h2, h3, h4, h5, h6, h7, h8⟩ := h2
  refine ⟨s, h, h2, h3, h4, fun as' s' hr' => settled_for_good early s h 0 h5 ?_ h6 as' s' hr'⟩
  intro t
  by_cases ht : t = 1
  · subst ht; exact Or.inl h7
  · right
    intro hm
    rcases h8 _ hm with h9 | h9
    · cases h9; exact ht rfl
    · simp [isAsked] at h9

/-- A stop throws a queued notification away. -/
theorem lost_by_stop : ∃ as s, run init as = some s ∧ queued s.log = [0] ∧ Proc.Ev.cleared (.msg ⟨statusTy, 0⟩) ∈ s.p.log := by
  obtain ⟨s, h, h2⟩ := of_any (o := run init (connectBy 1 ++ [.register 5, .change .unknown .available, .lock 0 1, .tell] ++ goOn 1 ++ [.tell, .proc (.callStop 1), .proc (.doClose 1), .proc (.doClear 1)]))
    (P := fun s => decide (queued s.log = [0] ∧ Proc.Ev.cleared (.msg ⟨statusTy, 0⟩) ∈ s.p.log)) (by decide +kernel)
  exact ⟨_, s, h, by simpa using h2⟩

/-- When the processor is gone the observer stays in the list and its notifications go nowhere. -/
theorem gone_still_listed : ∃ as s, run init as = some s ∧ s.listed = [5] ∧ .lost 0 ∈ s.log := by
  obtain ⟨s, h, h2⟩ := of_any (o := run init [.register 5, .drop, .change .unknown .available, .lock 0 1, .tell])
    (P := fun s => decide (s.listed = [5] ∧ .lost 0 ∈ s.log)) (by decide +kernel)
  exact ⟨_, s, h, by simpa using h2⟩

/-- A handler is called with a notification after its observer was unregistered. -/
theorem after_unregister : ∃ as s a b, run init as = some s ∧ s.log = a ++ .unregistered 5 :: b ∧ .proc (.sig 2 0 (.called 0 0 ⟨statusTy, 0⟩)) ∈ b := by
  obtain ⟨s, h, h2⟩ := of_any (o := run init (connectBy 1 ++ [.register 5, .change .unknown .available, .lock 0 1, .tell] ++ goOn 1 ++ [.tell, .unregister 5, .proc (.callRun 2 .forever)] ++ dispatchBy 2))
    (P := fun s => decide (∃ i ∈ List.range 40, s.log = s.log.take i ++ .unregistered 5 :: s.log.drop (i + 1) ∧ .proc (.sig 2 0 (.called 0 0 ⟨statusTy, 0⟩)) ∈ s.log.drop (i + 1))) (by decide +kernel)
  simp only [decide_eq_true_eq] at h2
  obtain ⟨i, -, h3, h4⟩ := h2
  exact ⟨_, s, _, _, h, h3, h4⟩

/-- The last thing queued says that the service is available (a greeting), although it has become unavailable and that has been told before. -/
theorem stale_greeting : ∃ as s, run init as = some s ∧ s.status = .unavailable ∧ queued s.log = [0, 1] ∧ .told 0 5 .available .unavailable 1 ∈ s.log ∧ .greeted 1 5 3 ∈ s.log ∧ s.waiting = [] ∧ s.walk = none := by
  obtain ⟨s, h, h2⟩ := of_any (o := run init (connectBy 1 ++ [.change .unknown .available, .lock 0 1, .tell, .register 5, .change .available .unavailable, .lock 0 1, .tell] ++ goOn 1 ++ [.tell, .greet 5 3] ++ goOn 3))
    (P := fun s => decide (s.status = .unavailable ∧ queued s.log = [0, 1] ∧ .told 0 5 .available .unavailable 1 ∈ s.log ∧ .greeted 1 5 3 ∈ s.log ∧ s.waiting = [] ∧ s.walk = none)) (by decide +kernel)
  exact ⟨_, s, h, by simpa using h2⟩

/-- Thread 2 runs the handler of the first notification when the second change is told by thread 1. -/
def jam : List Act :=
  connectBy 1 ++ [.register 5, .change .unknown .available, .lock 0 1, .tell] ++ goOn 1 ++ .tell :: .proc (.callRun 2 .forever) :: dispatchBy 2 ++ [.change .available .unavailable, .lock 0 1, .tell, .proc (.lockMap 1)]

/-- C125: deadlock. Thread 2 runs the handler of the status; thread 1 tells the next change, with the list locked, and waits for the signal that thread 2 is emitting. If the handler now registers or unregisters an observer it never returns: for as long as thread 2 does nothing else, no schedule lets that call through, and thread 1 stays where it is. -/
theorem handler_registers : ∃ s, run init jam = some s ∧ s.p.ub = false ∧ Proc.canCall s.p 2 = true ∧ .proc (.sig 2 0 (.called 0 0 ⟨statusTy, 0⟩)) ∈ s.log ∧
    ∀ as' s', run s as' = some s' → (∀ a ∈ as', a.actor ≠ some 2) → (∀ o, step s' (.register o) = none ∧ step s' (.unregister o) = none) ∧ walks s' 1 = true := by
  obtain ⟨s, h, h2⟩ := of_any (o := run init jam) (P := fun s => decide (s.p.ub = false ∧ Proc.canCall s.p 2 = true ∧ .proc (.sig 2 0 (.called 0 0 ⟨statusTy, 0⟩)) ∈ s.log ∧
    walks s 1 = true ∧ s.p.stk 1 = [.post2 ⟨statusTy, 1⟩ 0] ∧ s.p.emitter 0 = some 2)) (by decide +kernel)
  simp only [decide_eq_true_eq] at h2
  obtain ⟨h2, h3, h4, h5, h6, h7⟩ := h2
  refine ⟨s, h, h2, h3, h4, fun as' s' hr' ha => ?_⟩
  obtain ⟨k1, k2, -⟩ := register_waits jam s h 1 2 h5 (by simp [Proc.WaitsFor, h6, h7]) as' s' hr' ha
  exact ⟨k1, k2⟩

end Maf.Sso
