import Verif.Spec.TimerThreads
namespace Maf.Xtm
open Maf.Tmr (Tm Data Op upd Frame Order push touch operate noteEmpty)

/-- The timer a frame is about. -/
def frameTm : Frame → List Tm
  | .waiting i _ => [i]
  | .held i _ => [i]
  | .waited i _ => [i]
  | _ => []

/-- The same, apart from the data of timers that are not `O`wned. -/
structure Agree (O : Tm → Prop) (a b : Tmr.State) : Prop where
  same : a = { b with data := a.data }
  data : ∀ i, O i → a.data i = b.data i
  recs : ∀ i ∈ b.records, O i
  frames : ∀ f ∈ b.stack, ∀ i ∈ frameTm f, O i

def OpOk (O : Tm → Prop) : Tmr.Act → Prop
  | .op o _ => O (timerOf o)
  | _ => True

theorem order_congr {O : Tm → Prop} {d e : Tm → Data} {ok : Bool} {old r : List Tm} (h : ∀ i, O i → d i = e i) (ho : ∀ i ∈ old, O i) : Order d ok old r ↔ Order e ok old r := by
  unfold Order
  refine and_congr_right fun hp => ?_
  have hr : ∀ i ∈ r, O i := fun i hi => ho i (hp.mem_iff.1 hi)
  refine forall_congr' fun _ => ?_
  constructor
  · intro h1 f hf j hj
    rw [← h f (hr f (List.mem_of_mem_head? hf)), ← h j (hr j hj)]; exact h1 f hf j hj
  · intro h1 f hf j hj
    rw [h f (hr f (List.mem_of_mem_head? hf)), h j (hr j hj)]; exact h1 f hf j hj

theorem frames_touch {O : Tm → Prop} {l : List Frame} (h : ∀ f ∈ l, ∀ i ∈ frameTm f, O i) : ∀ f ∈ l.map Frame.touch, ∀ i ∈ frameTm f, O i := by
  intro f hf i hi
  obtain ⟨g, hg, rfl⟩ := List.mem_map.1 hf
  refine h g hg i ?_
  cases g <;> simpa [Frame.touch, frameTm] using hi

/-- What is kept by a step. -/
structure Kept (O : Tm → Prop) (d : Tm → Data) (a' b' : Tmr.State) : Prop where
  ag : Agree O a' b'
  out : ∀ i, ¬ O i → a'.data i = d i

theorem upd_agree {O : Tm → Prop} {d e : Tm → Data} (h : ∀ i, O i → d i = e i) (j : Tm) (v : Data) : ∀ i, O i → upd d j v i = upd e j v i := by
  intro i hi; simp only [upd]; split
  · rfl
  · exact h i hi

theorem upd_out {O : Tm → Prop} {d : Tm → Data} {j : Tm} (hj : O j) (v : Data) : ∀ i, ¬ O i → upd d j v i = d i := by
  intro i hi; simp only [upd]; split
  · rename_i e; subst e; exact absurd hj hi
  · rfl

theorem push_eq (s : Tmr.State) (j : Tmr.Job) : push s j = { s with jobs := if s.closed then s.jobs else s.jobs ++ [j] } := by
  unfold push; cases h : s.closed <;> cases s <;> simp_all

theorem noteEmpty_eq (s : Tmr.State) : noteEmpty s = { s with st := if s.records = [] then .noTimer else s.st } := by
  unfold noteEmpty; split <;> cases s <;> simp_all

theorem ret_eq (s : Tmr.State) (fs : List Frame) : Tmr.ret s fs =
    { s with stack := (match fs with | .held i t :: fs => .waited i t :: fs | fs => fs), st := (match fs with | .held _ _ :: _ => .haveTimer | _ => s.st) } := by
  cases fs with
  | nil => rfl
  | cons f fs => cases f <;> rfl

theorem operate_agree {O : Tm → Prop} {b : Tmr.State} {d : Tm → Data} {o : Op} {r : List Tm} {a' : Tmr.State} (h : ∀ i, O i → d i = b.data i)
    (hr : ∀ i ∈ b.records, O i) (hf : ∀ f ∈ b.stack, ∀ i ∈ frameTm f, O i) (ho : O (timerOf o))
    (hs : operate { b with data := d } r o = some a') : ∃ b', operate b r o = some b' ∧ Kept O d a' b' := by
  have hc : ∀ i v ok, ∀ old : List Tm, (∀ i ∈ old, O i) → Order (upd d i v) ok old r → Order (upd b.data i v) ok old r :=
    fun i v ok old h' => (order_congr (upd_agree h i v) h').1
  obtain ⟨now, data, records, st, jobs, closed, stack, heapOk, ub, log⟩ := b
  simp only at h hr hf hs hc
  cases o with
  | start i dd =>
    have hi := h i ho
    have ho : O i := ho
    simp only [operate, hi, push_eq] at hs ⊢
    split at hs
    · rename_i hrun
      rw [if_pos hrun]
      split at hs
      · rename_i hor
        cases hs
        rw [if_pos (hc _ _ _ _ hr hor)]
        exact ⟨_, rfl, ⟨rfl, upd_agree h i _, fun j hj => hr j (hor.1.mem_iff.1 hj), hf⟩, upd_out ho _⟩
      · cases hs
    · rename_i hrun
      have hr' : ∀ j ∈ records ++ [i], O j := by
        intro j hj; rcases List.mem_append.1 hj with hj | hj
        · exact hr j hj
        · simp at hj; subst hj; exact ho
      rw [if_neg hrun]
      split at hs
      · rename_i hor
        cases hs
        rw [if_pos (hc _ _ _ _ hr' hor)]
        exact ⟨_, rfl, ⟨rfl, upd_agree h i _, fun j hj => hr' j (hor.1.mem_iff.1 hj), hf⟩, upd_out ho _⟩
      · cases hs
  | stop i =>
    have hi := h i ho
    have ho : O i := ho
    simp only [operate, hi, push_eq, noteEmpty_eq] at hs ⊢
    split at hs
    · rename_i hrun
      rw [if_pos hrun]
      cases hs
      exact ⟨_, rfl, ⟨rfl, h, hr, hf⟩, fun _ _ => rfl⟩
    · rename_i hrun
      rw [if_neg hrun]
      cases records with
      | nil =>
        cases hs
        exact ⟨_, rfl, ⟨rfl, upd_agree h i _, by simp, hf⟩, upd_out ho _⟩
      | cons f rest =>
        have hrest : ∀ j ∈ rest, O j := fun j hj => hr j (by simp [hj])
        simp only at hs ⊢
        split at hs
        · rename_i hfi
          rw [if_pos hfi]
          split at hs
          · rename_i hor
            cases hs
            rw [if_pos (hc _ _ _ _ hrest hor)]
            refine ⟨_, rfl, ?_⟩
            generalize (if r = [] then Tmr.St.noTimer else st) = z
            split <;> exact ⟨⟨rfl, upd_agree h i _, fun j hj => hrest j (hor.1.mem_iff.1 hj), hf⟩, upd_out ho _⟩
          · cases hs
        · rename_i hfi
          rw [if_neg hfi]
          split at hs
          · rename_i hcount
            rw [if_pos hcount]
            cases hs
            exact ⟨_, rfl, ⟨rfl, upd_agree h i _, hr, hf⟩, upd_out ho _⟩
          · rename_i hcount
            rw [if_neg hcount]
            split at hs
            · rename_i hcon
              rw [if_pos hcon]
              have he : ∀ j ∈ (f :: rest).erase i, O j := fun j hj => hr j (List.mem_of_mem_erase hj)
              split at hs
              · rename_i hor
                cases hs
                rw [if_pos (hc _ _ _ _ he hor)]
                exact ⟨_, rfl, ⟨rfl, upd_agree h i _, fun j hj => he j (hor.1.mem_iff.1 hj), hf⟩, upd_out ho _⟩
              · cases hs
            · rename_i hcon
              rw [if_neg hcon]
              cases hs
              exact ⟨_, rfl, ⟨rfl, upd_agree h i _, hr, hf⟩, upd_out ho _⟩
  | restart i =>
    have hi := h i ho
    have ho : O i := ho
    simp only [operate, hi, push_eq] at hs ⊢
    cases records with
    | nil =>
      cases hs
      exact ⟨_, rfl, ⟨rfl, upd_agree h i _, by simp, hf⟩, upd_out ho _⟩
    | cons f rest =>
      simp only at hs ⊢
      by_cases hor : Order (upd d i { (data i) with deadline := now + (data i).duration, running := true }) (if f = i then heapOk else true) (f :: rest) r
      · rw [if_pos hor] at hs
        cases hs
        rw [if_pos (hc _ _ _ _ hr hor)]
        exact ⟨_, rfl, ⟨rfl, upd_agree h i _, fun j hj => hr j (hor.1.mem_iff.1 hj), hf⟩, upd_out ho _⟩
      · rw [if_neg hor] at hs; cases hs
  | setCyclic i v =>
    have hi := h i ho
    have ho : O i := ho
    simp only [operate, hi, Option.some.injEq] at hs ⊢
    subst hs
    exact ⟨_, rfl, ⟨rfl, upd_agree h i _, hr, hf⟩, upd_out ho _⟩

theorem frames_ret {O : Tm → Prop} {fs : List Frame} (hf : ∀ f ∈ fs, ∀ i ∈ frameTm f, O i) :
    ∀ f ∈ (match fs with | .held i t :: fs => .waited i t :: fs | fs => fs : List Frame), ∀ i ∈ frameTm f, O i := by
  split
  · intro f hf' i hi
    rcases List.mem_cons.1 hf' with rfl | hf'
    · exact hf _ (List.mem_cons_self ..) i (by simpa [frameTm] using hi)
    · exact hf f (by simp [hf']) i hi
  · exact hf

theorem ret_agree {O : Tm → Prop} {b : Tmr.State} {d : Tm → Data} {fs : List Frame} (h : ∀ i, O i → d i = b.data i) (hr : ∀ i ∈ b.records, O i)
    (hf : ∀ f ∈ fs, ∀ i ∈ frameTm f, O i) {a : Tmr.State} (e : a = { b with data := d }) : Kept O d (Tmr.ret a fs) (Tmr.ret b fs) := by
  subst e
  simp only [ret_eq]
  exact ⟨⟨rfl, h, hr, frames_ret hf⟩, fun _ _ => rfl⟩

theorem begin_agree {O : Tm → Prop} {b : Tmr.State} {d : Tm → Data} {fs : List Frame} (j : Tmr.Job) (h : ∀ i, O i → d i = b.data i) (hr : ∀ i ∈ b.records, O i)
    (hf : ∀ f ∈ fs, ∀ i ∈ frameTm f, O i) {a : Tmr.State} (e : a = { b with data := d }) : Kept O d (Tmr.begin a fs j) (Tmr.begin b fs j) := by
  subst e
  have cons (f : Frame) (h0 : frameTm f = []) : ∀ g ∈ f :: fs, ∀ i ∈ frameTm g, O i := by
    intro g hg i hi
    rcases List.mem_cons.1 hg with rfl | hg
    · rw [h0] at hi; cases hi
    · exact hf g hg i hi
  cases j with
  | user => exact ⟨⟨rfl, h, hr, cons .user rfl⟩, fun _ _ => rfl⟩
  | wake => exact ret_agree h hr hf rfl
  | check =>
    simp only [Tmr.begin]
    split
    · exact ret_agree h hr hf rfl
    · exact ⟨⟨rfl, h, hr, cons .check rfl⟩, fun _ _ => rfl⟩

theorem step_agree {O : Tm → Prop} {b : Tmr.State} {d : Tm → Data} {x : Tmr.Act} {a' : Tmr.State} (h : ∀ i, O i → d i = b.data i)
    (hr : ∀ i ∈ b.records, O i) (hf : ∀ f ∈ b.stack, ∀ i ∈ frameTm f, O i) (ho : OpOk O x)
    (hs : Tmr.step { b with data := d } x = some a') : ∃ b', Tmr.step b x = some b' ∧ Kept O d a' b' := by
  have hub : b.ub = false := by
    cases hb : b.ub with
    | false => rfl
    | true => simp [Tmr.step, hb] at hs
  obtain ⟨now, data, records, st, jobs, closed, stack, heapOk, ub, log⟩ := b
  simp only at h hr hf hs hub
  subst hub
  have cons {fs : List Frame} (hf : ∀ f ∈ fs, ∀ i ∈ frameTm f, O i) (f : Frame) (h0 : ∀ i ∈ frameTm f, O i) : ∀ g ∈ f :: fs, ∀ i ∈ frameTm g, O i := by
    intro g hg i hi
    rcases List.mem_cons.1 hg with rfl | hg
    · exact h0 i hi
    · exact hf g hg i hi
  have tail {f : Frame} {fs : List Frame} (hf : ∀ g ∈ f :: fs, ∀ i ∈ frameTm g, O i) : (∀ g ∈ fs, ∀ i ∈ frameTm g, O i) ∧ ∀ i ∈ frameTm f, O i :=
    ⟨fun g hg => hf g (by simp [hg]), hf f (by simp)⟩
  cases x with
  | tick t => cases hs; exact ⟨_, rfl, ⟨rfl, h, hr, hf⟩, fun _ _ => rfl⟩
  | post =>
    simp only [Tmr.step, push_eq, Bool.false_eq_true, if_false, Option.some.injEq] at hs ⊢
    subst hs
    exact ⟨_, rfl, ⟨rfl, h, hr, hf⟩, fun _ _ => rfl⟩
  | stopProc => cases hs; exact ⟨_, rfl, ⟨rfl, h, hr, hf⟩, fun _ _ => rfl⟩
  | reuse => cases hs; exact ⟨_, rfl, ⟨rfl, h, hr, hf⟩, fun _ _ => rfl⟩
  | take =>
    simp only [Tmr.step, Bool.false_eq_true, if_false] at hs ⊢
    split at hs
    · cases hs
    · rename_i hc
      rw [if_neg hc]
      split at hs
      · cases hs; exact ⟨_, rfl, begin_agree _ h hr (by simp) rfl⟩
      · cases hs; exact ⟨_, rfl, begin_agree _ h hr hf rfl⟩
      · cases hs
  | op o r =>
    simp only [Tmr.step, Bool.false_eq_true, if_false] at hs ⊢
    split at hs
    · exact operate_agree (b := touch ⟨now, data, records, st, jobs, closed, _, heapOk, false, log⟩) h hr (frames_touch hf) ho hs
    · cases hs
  | ret =>
    simp only [Tmr.step, Bool.false_eq_true, if_false] at hs ⊢
    split at hs
    · cases hs; exact ⟨_, rfl, ret_agree h hr (tail hf).1 rfl⟩
    · cases hs
  | look =>
    simp only [Tmr.step, Bool.false_eq_true, if_false] at hs ⊢
    split at hs
    · split at hs
      · cases hs; exact ⟨_, rfl, ret_agree h hr (tail hf).1 rfl⟩
      · rename_i i _
        have hi := h i (hr i (by simp))
        simp only [hi] at hs
        split at hs
        · rename_i hle
          cases hs
          rw [if_pos hle]
          exact ⟨_, rfl, ⟨rfl, h, hr, cons (tail hf).1 _ (by simp [frameTm, hr i])⟩, fun _ _ => rfl⟩
        · rename_i hle
          cases hs
          rw [if_neg hle]
          exact ⟨_, rfl, ⟨rfl, h, hr, cons (tail hf).1 _ (by simp [frameTm, hr i])⟩, fun _ _ => rfl⟩
    · cases hs
  | waitJob =>
    simp only [Tmr.step, Bool.false_eq_true, if_false] at hs ⊢
    split at hs
    · split at hs
      · cases hs
      · rename_i hc
        rw [if_neg hc]
        split at hs
        · cases hs
          exact ⟨_, rfl, begin_agree _ h hr (cons (tail hf).1 _ (by simpa [frameTm] using (tail hf).2)) rfl⟩
        · cases hs
    · cases hs
  | waitOut =>
    simp only [Tmr.step, Bool.false_eq_true, if_false] at hs ⊢
    split at hs
    · split at hs
      · rename_i hc
        rw [if_pos hc]
        cases hs
        exact ⟨_, rfl, ⟨rfl, h, hr, cons (tail hf).1 _ (by simpa [frameTm] using (tail hf).2)⟩, fun _ _ => rfl⟩
      · cases hs
    · cases hs
  | fire r =>
    simp only [Tmr.step, Bool.false_eq_true, if_false] at hs ⊢
    split at hs
    · rename_i i touched fs
      have hoi : O i := (tail hf).2 i (by simp [frameTm])
      have hi := h i hoi
      simp only [hi] at hs ⊢
      split at hs
      · rename_i hc
        rw [if_pos hc]
        cases hs; exact ⟨_, rfl, ret_agree h hr (tail hf).1 rfl⟩
      rename_i hc
      rw [if_neg hc]
      split at hs
      · rename_i hlt
        rw [if_pos hlt]
        cases hs; exact ⟨_, rfl, ⟨rfl, h, hr, cons (tail hf).1 _ (by simp [frameTm])⟩, fun _ _ => rfl⟩
      rename_i hlt
      rw [if_neg hlt]
      split at hs
      · rename_i hrun
        rw [if_pos hrun]
        cases hs; exact ⟨_, rfl, ⟨rfl, h, hr, cons (tail hf).1 _ (by simp [frameTm])⟩, fun _ _ => rfl⟩
      rename_i hrun
      rw [if_neg hrun]
      cases records with
      | nil =>
        cases hs
        exact ⟨_, rfl, ⟨rfl, h, by simp, hf⟩, fun _ _ => rfl⟩
      | cons f rest =>
        have hof : O f := hr f (by simp)
        have hfd := h f hof
        have hstk : ∀ g ∈ Frame.user :: Frame.check :: fs.map Frame.touch, ∀ i ∈ frameTm g, O i :=
          cons (cons (frames_touch (tail hf).1) _ (by simp [frameTm])) _ (by simp [frameTm])
        simp only [hfd] at hs ⊢
        split at hs
        · rename_i hcy
          rw [if_pos hcy]
          split at hs
          · rename_i hor
            cases hs
            rw [if_pos ((order_congr (upd_agree h f _) hr).1 hor)]
            exact ⟨_, rfl, ⟨rfl, upd_agree h f _, fun j hj => hr j (hor.1.mem_iff.1 hj), hstk⟩, upd_out hof _⟩
          · cases hs
        · rename_i hcy
          rw [if_neg hcy]
          have hrest : ∀ j ∈ rest, O j := fun j hj => hr j (by simp [hj])
          simp only [noteEmpty_eq] at hs ⊢
          split at hs
          · rename_i hor
            cases hs
            rw [if_pos ((order_congr (upd_agree h i _) hrest).1 hor)]
            exact ⟨_, rfl, ⟨rfl, upd_agree h i _, fun j hj => hrest j (hor.1.mem_iff.1 hj), hstk⟩, upd_out hoi _⟩
          · cases hs
    · cases hs

theorem operate_now {s s' : Tmr.State} {r : List Tm} {o : Op} (h : operate s r o = some s') : s'.now = s.now := by
  cases o <;> simp only [operate, push_eq, noteEmpty_eq] at h <;> (repeat' split at h) <;> simp only [Option.some.injEq, reduceCtorEq] at h <;> (try subst h) <;>
    (try rfl)
  all_goals (repeat' split) <;> rfl

theorem step_now {s s' : Tmr.State} {x : Tmr.Act} (ht : ¬ isTick x = true) (h : Tmr.step s x = some s') : s'.now = s.now := by
  simp only [Tmr.step] at h
  split at h
  · cases h
  have hret : ∀ s fs, (Tmr.ret s fs).now = s.now := fun s fs => by rw [ret_eq]
  have hbeg : ∀ s fs j, (Tmr.begin s fs j).now = s.now := by
    intro s fs j; cases j <;> simp only [Tmr.begin] <;> (try split) <;> simp [hret]
  cases x with
  | tick t => exact absurd rfl ht
  | op o r =>
    simp only at h
    split at h
    · exact operate_now (s := touch s) h
    · cases h
  | _ =>
    simp only [push_eq, noteEmpty_eq] at h
    (repeat' split at h) <;> simp only [Option.some.injEq, reduceCtorEq] at h <;> (try subst h) <;> simp [hret, hbeg]

/-- Every thread is in step with a run of its own. -/
structure Sim (own : Tm → Tid) (s : State) (T : Tid → Tmr.State) : Prop where
  ag : ∀ p, Agree (fun i => own i = p) (view s p) (T p)
  ub : s.ub = false → ∀ p, (s.proc p).ub = false

theorem Sim_init (own : Tm → Tid) : Sim own init (fun _ => Tmr.init) := by
  refine ⟨fun p => ⟨rfl, fun _ _ => rfl, ?_, ?_⟩, fun _ _ => rfl⟩ <;> intro i hi <;> cases hi

theorem sim_step {own : Tm → Tid} {s s' : State} {T : Tid → Tmr.State} {a : Act} (h : Sim own s T)
    (hc : (∀ p o r, a = .on p (.op o r) → own (timerOf o) = p) ∧ ∀ i, a ≠ .outside i) (hr : step s a = some s') :
    ∃ T', Sim own s' T' ∧ ∀ p, Tmr.run (T p) (actsOf p [a]) = some (T' p) := by
  have hub : s.ub = false := by
    cases hb : s.ub with
    | false => rfl
    | true => simp [step, hb] at hr
  have hT : ∀ p, (T p).ub = false := by
    intro p; have := congrArg Tmr.State.ub (h.ag p).same; simp only [view] at this; rw [← this]; exact h.ub hub p
  simp only [step, hub, Bool.false_eq_true, if_false] at hr
  cases a with
  | tick t =>
    cases hr
    refine ⟨fun p => { T p with now := t }, ⟨fun p => ?_, fun _ => h.ub hub⟩, fun p => by simp [actsOf, Tmr.run, Tmr.step, hT p]⟩
    have hp := h.ag p
    refine ⟨?_, hp.data, hp.recs, hp.frames⟩
    have e := hp.same
    have e2 : view { now := t, data := s.data, proc := s.proc, ub := false } p = { view s p with now := t } := rfl
    simp only [e2]
    rw [e]
  | outside i => exact absurd rfl (hc.2 i)
  | on p x =>
    simp only at hr
    split at hr
    · cases hr
    · rename_i htick
      simp only [Option.map_eq_some_iff] at hr
      obtain ⟨v, hv, rfl⟩ := hr
      have hp := h.ag p
      rw [hp.same] at hv
      have ho : OpOk (fun i => own i = p) x := by
        cases x <;> first | trivial | exact hc.1 p _ _ rfl
      obtain ⟨b', hb, hk⟩ := step_agree (d := (view s p).data) hp.data hp.recs hp.frames ho hv
      have hnow : v.now = s.now := by
        have h1 := congrArg Tmr.State.now hp.same
        exact (step_now htick hv).trans h1.symm
      refine ⟨upd T p b', ⟨fun q => ?_, ?_⟩, fun q => ?_⟩
      · by_cases hq : q = p
        · subst hq
          have e : view (put s q v) q = v := by cases v; simp [view, put, upd]
          rw [e]
          have e' : upd T q b' q = b' := by simp [upd]
          rw [e']
          exact hk.ag
        · have e' : upd T p b' q = T q := by simp [upd, hq]
          have e : view (put s p v) q = { view s q with data := v.data } := by simp [view, put, upd, hq, hnow]
          rw [e, e']
          have hqa := h.ag q
          refine ⟨?_, ?_, hqa.recs, hqa.frames⟩
          · have := hqa.same
            simp only
            rw [this]
          · intro i hi
            have h1 := hk.out i (fun h' => hq (hi.symm.trans h'))
            have h2 := hqa.data i hi
            exact h1.trans h2
      · intro hu q
        by_cases hq : q = p
        · subst hq; simpa [put, upd] using hu
        · simp only [put, upd, hq, if_false]; exact h.ub hub q
      · by_cases hq : q = p
        · subst hq; simp [actsOf, Tmr.run, hb, upd]
        · simp [actsOf, Tmr.run, upd, hq, Ne.symm hq]

theorem actsOf_cons (p : Tid) (a : Act) (as : List Act) : actsOf p (a :: as) = actsOf p [a] ++ actsOf p as := by
  cases a with
  | on q x => by_cases h : q = p <;> simp [actsOf, h]
  | _ => simp [actsOf]

theorem tmr_run_append (s : Tmr.State) (as bs : List Tmr.Act) : Tmr.run s (as ++ bs) = (Tmr.run s as).bind fun s' => Tmr.run s' bs := by
  induction as generalizing s with
  | nil => rfl
  | cons a as ih =>
    simp only [List.cons_append, Tmr.run]
    cases Tmr.step s a with
    | none => rfl
    | some s1 => exact ih s1

theorem sim_run {own : Tm → Tid} {as : List Act} : ∀ {s s' : State} {T : Tid → Tmr.State}, Sim own s T → Confined own as → run s as = some s' →
    ∃ T', Sim own s' T' ∧ ∀ p, Tmr.run (T p) (actsOf p as) = some (T' p) := by
  induction as with
  | nil => intro s s' T h _ hr; cases hr; exact ⟨T, h, fun _ => rfl⟩
  | cons a as ih =>
    intro s s' T h hc hr
    simp only [run, Option.bind_eq_some_iff] at hr
    obtain ⟨s1, h1, h2⟩ := hr
    obtain ⟨T1, hs1, ht1⟩ := sim_step h (hc a (by simp)) h1
    obtain ⟨T2, hs2, ht2⟩ := ih hs1 (fun b hb => hc b (by simp [hb])) h2
    refine ⟨T2, hs2, fun p => ?_⟩
    rw [actsOf_cons, tmr_run_append, ht1 p]
    exact ht2 p

end Maf.Xtm
