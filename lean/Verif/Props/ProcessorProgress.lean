import Verif.Lemmas.ProcessorProgress
import Verif.Props.Processor
/-
C60: a call that does not wait for a lock goes on.
-/
namespace Maf.Proc

/-- The next step of a thread whose innermost activation is `f`: of a library call, the next
access to shared data; of user code, its return. -/
def nextAct (t : Tid) : Frame → Act
  | .loop .. => .take t
  | .leaving _ => .leave t
  | .taken _ => .invoke t
  | .code _ | .inline _ | .handler .. => .ret t
  | .lookup _ => .find t
  | .willNotify .. => .startNotify t
  | .notifying .. => .iter t
  | .post1 _ => .lockMap t
  | .post2 .. => .postCheck t
  | .async _ => .asyncCheck t
  | .push1 _ => .pushCheck t
  | .push2 _ => .insert t
  | .connReq _ => .lockConnect t
  | .conn _ => .doConnect t
  | .discReq _ => .lockDisconnect t
  | .cleanup _ => .cleanupStep t
  | .sigReq .. => .doSig t
  | .stop1 => .doClose t
  | .stop2 => .doClear t

theorem not_free {s : State} {t g : Nat} (h : kFree s t g = false) : ∃ u, s.emitter g = some u ∧ u ≠ t := by
  simp only [kFree, Bool.or_eq_false_iff, beq_eq_false_iff_ne, ne_eq] at h
  cases he : s.emitter g with
  | none => exact absurd he h.1
  | some u => exact ⟨u, rfl, fun e => h.2 (by rw [he, e])⟩

/-- A signal whose lock can be taken by a thread that is not at its emission's loop can be
operated on. -/
theorem free_of {s : State} (hk : EmOk s) {t g : Nat} (h : kFree s t g = true) (ht : topN (s.stk t) ≠ some g) :
    Sig.free (s.sigs g) = true := by
  have h0 := hk g
  simp only [kFree, Bool.or_eq_true, beq_iff_eq] at h
  rcases h with h | h
  · rw [h] at h0; simp only at h0; simp [Sig.free, h0]
  · rw [h] at h0
    obtain ⟨e, he, -, h2⟩ := h0
    obtain ⟨k, sl, hr⟩ := h2 ht
    simp [Sig.free, he, hr]

theorem sigStep_some {s : State} {t g : Nat} {a : Sig.Act Msg} (h : (Sig.step (s.sigs g) a).isSome) : (sigStep s t g a).isSome := by
  simp only [sigStep]
  cases hx : Sig.step (s.sigs g) a with
  | none => rw [hx] at h; cases h
  | some x => rfl

/-- C60: a thread in a call on the processor can make its next step; or it waits for a lock
that another thread holds; or it runs the processor and there is no work. -/
theorem can_go_on (acts : List Act) (s : State) (h : run init acts = some s) (hu : s.ub = false) (t : Tid) (f : Frame) (rest : List Frame)
    (hst : s.stk t = f :: rest) :
    (step s (nextAct t f)).isSome ∨ (∃ u, u ≠ t ∧ WaitsFor s t u) ∨ (∃ k b, f = .loop k b ∧ s.closed = false ∧ s.q = []) := by
  have hS := sound acts s h
  have hk := hS.ok hu
  have hL := hS.life hu
  have hb := hS.full.base
  have hdi := hS.full.di hu
  have own : ∀ u, s.mOwner = some u → holdsM (s.stk t) = false → u ≠ t := by
    intro u h1 h2 e
    subst e
    rw [(hb.own u).2 h1] at h2
    cases h2
  have stp : ∀ a, (body s a).isSome → (step s a).isSome := by
    intro a ha; simp only [step, hu]; simpa using ha
  have onSig : ∀ g (a : Sig.Act Msg), (Sig.body (s.sigs g) a).isSome → (Sig.step (s.sigs g) a).isSome := by
    intro g a ha; simp only [Sig.step, hL.noub g]; simpa using ha
  have nTop : ∀ g, topN (f :: rest) ≠ some g → topN (s.stk t) ≠ some g := by intro g; rw [hst]; exact id
  have top : fits f rest = true := by have := hb.wf t; rw [hst] at this; simp [wf] at this; exact this.1
  have locked : ∀ a, holdsM (s.stk t) = false → (s.mOwner = none → (body s a).isSome) →
      (∀ u, s.mOwner = some u → WaitsFor s t u) → (step s a).isSome ∨ ∃ u, u ≠ t ∧ WaitsFor s t u := by
    intro a h1 h2 h3
    cases hm : s.mOwner with
    | none => exact Or.inl (stp _ (h2 hm))
    | some u => exact Or.inr ⟨u, own u hm h1, h3 u hm⟩
  have sigged : ∀ a g, (kFree s t g = true → (body s a).isSome) →
      (∀ u, s.emitter g = some u → u ≠ t → WaitsFor s t u) → (step s a).isSome ∨ ∃ u, u ≠ t ∧ WaitsFor s t u := by
    intro a g h2 h3
    cases hm : kFree s t g with
    | true => exact Or.inl (stp _ (h2 hm))
    | false => obtain ⟨u, h4, h5⟩ := not_free hm; exact Or.inr ⟨u, h5, h3 u h4 h5⟩
  cases f <;> simp only [nextAct]
  case loop k b =>
    cases hc : s.closed with
    | true => exact Or.inl (stp _ (by simp [body, hst, hc]))
    | false =>
      cases hq : s.q with
      | nil => exact Or.inr (Or.inr ⟨k, b, rfl, rfl, rfl⟩)
      | cons w q => exact Or.inl (stp _ (by simp [body, hst, hc, hq]))
  case leaving b => exact Or.inl (stp _ (by simp [body, hst]))
  case taken w => exact Or.inl (stp _ (by simp [body, hst]))
  case code n => exact Or.inl (stp _ (by simp [body, hst]))
  case inline n => exact Or.inl (stp _ (by simp [body, hst]))
  case async w => exact Or.inl (stp _ (by simp only [body, hst]; split <;> rfl))
  case push1 w => exact Or.inl (stp _ (by simp only [body, hst]; split <;> rfl))
  case push2 w => exact Or.inl (stp _ (by simp [body, hst]))
  case stop1 => exact Or.inl (stp _ (by simp [body, hst]))
  case stop2 => exact Or.inl (stp _ (by simp [body, hst]))
  case lookup m =>
    refine (locked _ (by rw [hst]; rfl) (fun hm => ?_) (fun u hm => by simp [WaitsFor, hst, hm])).imp id Or.inl
    simp only [body, hst, hm, ne_eq, not_true_eq_false, if_false]; split <;> rfl
  case post1 m =>
    refine (locked _ (by rw [hst]; rfl) (fun hm => ?_) (fun u hm => by simp [WaitsFor, hst, hm])).imp id Or.inl
    simp only [body, hst, hm, ne_eq, not_true_eq_false, if_false]; split <;> rfl
  case connReq ty =>
    refine (locked _ (by rw [hst]; rfl) (fun hm => ?_) (fun u hm => by simp [WaitsFor, hst, hm])).imp id Or.inl
    simp [body, hst, hm]
  case discReq ty =>
    refine (locked _ (by rw [hst]; rfl) (fun hm => ?_) (fun u hm => by simp [WaitsFor, hst, hm])).imp id Or.inl
    simp [body, hst, hm]
  case post2 m g =>
    refine (sigged _ g (fun hm => ?_) (fun u hm hne => by simp [WaitsFor, hst, hm, hne])).imp id Or.inl
    simp only [body, hst, hm, if_true]; split <;> rfl
  case sigReq g a =>
    refine (sigged _ g (fun hm => ?_) (fun u hm hne => by simp [WaitsFor, hst, hm, hne])).imp id Or.inl
    simp only [body, hst, hm, if_true]
    refine sigStep_some ?_
    simp only [setStk]
    refine onSig _ _ ?_
    have hfr := free_of hk hm (nTop g (by simp [topN]))
    have ho := hS.full.ops _ _ _ _ hst
    cases a <;> simp [isHandleOp] at ho <;> simp [Sig.body, hfr, hL.plain g]
  case willNotify d m g =>
    refine (sigged _ g (fun hm => ?_) (fun u hm hne => by simp [WaitsFor, hst, hm, hne])).imp id Or.inl
    simp only [body, hst, hm, Bool.true_eq_false, if_false]
    split
    · rfl
    · next hne =>
      refine sigStep_some ?_
      simp only [setStk, emitLog]
      refine onSig _ _ ?_
      have hfr := free_of hk hm (nTop g (by simp [topN]))
      have hal := (hL.refs _ _ (hS.refer.will _ _ _ _ _ hst)).2
      simp only [Sig.body, hfr, hal, Bool.and_self, if_true, hne, if_false]
      split <;> rfl
  case conn ty =>
    cases hg : s.map.lookup ty with
    | none =>
      refine Or.inl (stp _ ?_)
      simp only [body, hst, hg]
      refine sigStep_some ?_
      simp only [setStk, emitLog]
      refine onSig _ _ ?_
      rw [hL.fresh _ (Nat.le_refl _)]; rfl
    | some g =>
      refine (sigged _ g (fun hm => ?_) (fun u hm hne => by simp only [WaitsFor, hst]; exact ⟨g, hg, hm, hne⟩)).imp id Or.inl
      simp only [body, hst, hg, hm, if_true]
      refine sigStep_some ?_
      simp only [setStk, emitLog]
      refine onSig _ _ ?_
      have hfr := free_of hk hm (nTop g (by simp [topN]))
      have hal := (hL.map _ _ (lookup_mem hg)).2
      simp [Sig.body, hfr, hal]
  case cleanup tys =>
    cases tys with
    | nil => exact Or.inl (stp _ (by simp [body, hst]))
    | cons ty tys =>
      cases hg : s.map.lookup ty with
      | none => exact Or.inl (stp _ (by simp [body, hst, hg]))
      | some g =>
        refine (sigged _ g (fun hm => ?_) (fun u hm hne => by simp only [WaitsFor, hst]; exact ⟨g, hg, hm, hne⟩)).imp id Or.inl
        simp only [body, hst, hg, hm, Bool.true_eq_false, if_false]
        split <;> rfl
  case handler d m g =>
    have hmem : Frame.notifying d m g ∈ s.stk t := by
      simp only [fits] at top
      cases rest with
      | nil => simp at top
      | cons f r => simp at top; subst top; rw [hst]; simp
    have h0 := hk g
    rw [(hdi.noti t d m g hmem).2.2] at h0
    obtain ⟨e, he, -, h2⟩ := h0
    obtain ⟨k, sl, hr⟩ := h2 (nTop g (by simp [topN]))
    refine Or.inl (stp _ ?_)
    simp only [body, hst]
    refine sigStep_some ?_
    simp only [setStk]
    refine onSig _ _ ?_
    obtain ⟨ea, ei, er⟩ := e
    simp only at hr; subst hr
    simp [Sig.body, he]
  case notifying d m g =>
    have h0 := hk g
    rw [(hdi.noti t d m g (by rw [hst]; exact List.mem_cons_self)).2.2] at h0
    obtain ⟨e, he, h1, -⟩ := h0
    have hr := h1 (by rw [hst]; rfl)
    refine Or.inl (stp _ ?_)
    simp only [body, hst]
    have hsig : (sigStep s t g .iter).isSome := by
      refine sigStep_some (onSig _ _ ?_)
      obtain ⟨ea, ei, er⟩ := e
      simp only at hr; subst hr
      simp only [Sig.body, he]
      split <;> rfl
    cases hx : sigStep s t g .iter with
    | none => rw [hx] at hsig; cases hsig
    | some s1 =>
      simp only
      split
      · rfl
      · split <;> rfl

/-- C60, partial: under the hypothesis of `lock_chains_partial`, whoever waits for a lock waits
for a thread that can make its next step, directly or over one other thread (or for a handler
that runs the processor itself, and waits for work in there). -/
theorem someone_moves_partial (acts : List Act) (s : State) (h : run init acts = some s) (hu : s.ub = false)
    (hh : ∀ u v, Dispatching s u → ¬ WaitsFor s u v) (t u : Tid) (htu : WaitsFor s t u) :
    ∃ v f rest, (v = u ∨ WaitsFor s u v) ∧ v ≠ t ∧ s.stk v = f :: rest ∧
      ((step s (nextAct v f)).isSome ∨ Dispatching s v ∧ ∃ k b, f = .loop k b ∧ s.closed = false ∧ s.q = []) := by
  have hb := (full acts s h).base
  have he := EmI_run acts s h
  have key : ∀ x y, WaitsFor s x y → (∀ w, ¬ WaitsFor s y w) → ∃ f rest, s.stk y = f :: rest ∧
      ((step s (nextAct y f)).isSome ∨ Dispatching s y ∧ ∃ k b, f = .loop k b ∧ s.closed = false ∧ s.q = []) := by
    intro x y hxy hn
    have hk := (waits_kind hb he hxy).2
    cases hs : s.stk y with
    | nil =>
      exfalso
      rcases hk with ⟨d, m, g, hm⟩ | ⟨hm, -⟩
      · rw [hs] at hm; cases hm
      · have := (hb.own y).2 hm; rw [hs] at this; cases this
    | cons f rest =>
      refine ⟨f, rest, rfl, ?_⟩
      rcases can_go_on acts s h hu y f rest hs with h1 | ⟨w, _, h1⟩ | ⟨k, b, rfl, h2⟩
      · exact Or.inl h1
      · exact absurd h1 (hn w)
      · rcases hk with hk | ⟨hm, -⟩
        · exact Or.inr ⟨hk, k, b, rfl, h2⟩
        · have := (hb.own y).2 hm; rw [hs] at this; cases this
  obtain ⟨h1, h2⟩ := lock_chains_partial acts s h hh t u htu
  by_cases hw : ∃ v, WaitsFor s u v
  · obtain ⟨v, hv⟩ := hw
    obtain ⟨-, h3, h4⟩ := h2 v hv
    obtain ⟨f, rest, h5, h6⟩ := key u v hv h4
    exact ⟨v, f, rest, Or.inr hv, h3, h5, h6⟩
  · obtain ⟨f, rest, h5, h6⟩ := key t u htu (fun w hx => hw ⟨w, hx⟩)
    exact ⟨u, f, rest, Or.inl rfl, h1, h5, h6⟩

/-- Thread 2 waits for the map's lock, which thread 1's `post` holds; thread 1 can go on. -/
example : ∃ s, run init (connectBy 1 0 ++ [.callPost 1 ⟨0, 7⟩, .lockMap 1, .callConnect 2 5]) = some s ∧ s.ub = false ∧
    s.stk 2 = [.connReq 5] ∧ WaitsFor s 2 1 ∧ step s (.lockConnect 2) = none ∧
    s.stk 1 = [.post2 ⟨0, 7⟩ 0] ∧ (step s (.postCheck 1)).isSome :=
  ⟨_, rfl, rfl, rfl, rfl, rfl, rfl, rfl⟩

/-- In a handler, and after it has returned. -/
example : ∃ s, run init (connectBy 1 0 ++ postBy 1 ⟨0, 7⟩ ++ .callRun 2 .forever :: dispatchBy 2) = some s ∧ s.ub = false ∧
    s.stk 2 = [.handler 0 ⟨0, 7⟩ 0, .notifying 0 ⟨0, 7⟩ 0, .loop .forever true] ∧ (step s (.ret 2)).isSome :=
  ⟨_, rfl, rfl, rfl, rfl⟩

end Maf.Proc
