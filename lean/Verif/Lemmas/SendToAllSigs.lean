import Verif.Lemmas.SendToAllTasks
namespace Maf.Bcast

def Sent (b : Nat) (l : List Ev) : Prop := ∃ t, Ev.sent t b true ∈ l
def Done (k : Nat) (l : List Ev) : Prop := ∃ t, Ev.ended t k true ∈ l
def Opened (b : Nat) (m : Msg) (l : List Ev) : Prop := ∃ t js, Ev.opened t b m js ∈ l

theorem Sent.more {b : Nat} {l : List Ev} (h : Sent b l) (es : List Ev) : Sent b (l ++ es) := h.elim fun t h => ⟨t, List.mem_append_left _ h⟩
theorem Done.more {b : Nat} {l : List Ev} (h : Done b l) (es : List Ev) : Done b (l ++ es) := h.elim fun t h => ⟨t, List.mem_append_left _ h⟩
theorem Opened.more {b : Nat} {m : Msg} {l : List Ev} (h : Opened b m l) (es : List Ev) : Opened b m (l ++ es) := h.elim fun t h => h.elim fun js h => ⟨t, js, List.mem_append_left _ h⟩

/-- Tasks come from broadcasts. -/
def Org (s : State) : Prop := ∀ k a, s.tasks k = some a → Ev.made a.bc a.proc k ∈ s.log ∧ Opened a.bc a.msg s.log

theorem org_init : Org init := by intro k a h; cases h

theorem org_more {s s' : State} (h : Org s) (ht : s'.tasks = s.tasks) {es : List Ev} (hl : s'.log = s.log ++ es) : Org s' := by
  intro k a hk
  rw [ht] at hk
  rw [hl]
  exact ⟨List.mem_append_left _ (h k a hk).1, (h k a hk).2.more es⟩

theorem org_set {s s' : State} (h : Org s) {k : Nat} {x : St} (ht : s'.tasks = setSt s k x) {es : List Ev} (hl : s'.log = s.log ++ es) : Org s' := by
  intro k' a hk
  rw [ht] at hk
  obtain ⟨a', h1, h2⟩ := setSt_some hk
  have h3 := h k' a' h1
  have : a.bc = a'.bc ∧ a.proc = a'.proc ∧ a.msg = a'.msg := by rw [h2]; split <;> simp
  rw [hl, this.1, this.2.1, this.2.2]
  exact ⟨List.mem_append_left _ h3.1, h3.2.more es⟩

theorem org_new {s s' : State} (h : Org s) {b : Nat} {q : Pid} {m : Msg} {x : St} (ht : s'.tasks = upd s.tasks s.nextT (some ⟨b, q, m, x⟩)) {es : List Ev} (hl : s'.log = s.log ++ Ev.made b q s.nextT :: es)
    (ho : Opened b m s.log) : Org s' := by
  intro k' a hk
  rw [ht] at hk
  rw [hl]
  unfold upd at hk
  split at hk
  · next e => subst e; cases hk; exact ⟨by simp, ho.more _⟩
  · exact ⟨List.mem_append_left _ (h k' a hk).1, (h k' a hk).2.more _⟩

theorem org_move {home : Tid → Option Pid} {s s' : State} (hm : Move home s s') (hc : Cont s) (h0 : Org s) : Org s' := by
  cases hm with
  | use t w h =>
    exact org_more h0 rfl (es := []) (by simp)
  | start t m rest h hn =>
    exact org_more h0 rfl rfl
  | unlock t w rest h hn =>
    exact org_more h0 rfl (es := []) (by simp)
  | join t p rest h hn hp =>
    exact org_more h0 rfl rfl
  | leave t p rest h hn hp =>
    exact org_more h0 rfl rfl
  | skip t b m q qs ks rest h =>
    exact org_more h0 rfl rfl
  | ask t b m q qs ks rest h =>
    exact org_more h0 rfl (es := []) (by simp)
  | send t b m ks rest h =>
    exact org_more h0 rfl rfl
  | inline t b m q qs ks rest h hh =>
    exact org_new h0 rfl rfl (by obtain ⟨-, h'⟩ := hc.posting t b m q qs ks (by rw [h]; simp); exact ⟨_, _, h'⟩)
  | queue t b m q qs ks rest h =>
    exact org_new h0 rfl rfl (by obtain ⟨-, h'⟩ := hc.posting t b m q qs ks (by rw [h]; simp); exact ⟨_, _, h'⟩)
  | refuse t b m q qs ks rest h =>
    exact org_more h0 rfl rfl
  | take t k b q m hu h hh =>
    exact org_set h0 rfl rfl
  | finish t k ok rest h =>
    exact org_set h0 rfl rfl
  | drop k b q m h =>
    exact org_set h0 rfl rfl
  | get t b ks hu h =>
    exact org_more h0 rfl (es := []) (by simp)
  | next t b k ks rest a h ha hd =>
    exact org_more h0 rfl (es := []) (by simp)
  | fail t b k ks rest a h ha hd =>
    exact org_more h0 rfl rfl
  | ok t b rest h =>
    exact org_more h0 rfl rfl
  | env st hs =>
    exact org_more h0 rfl (es := []) (by simp)

/-- Signals of broadcasts. -/
structure Sgn (s : State) : Prop where
  sent : ∀ t b v, Ev.sent t b v ∈ s.log → (∀ t', sending s.log ≠ some (t', b)) ∧ b < s.nextB
  sending : ∀ t b, sending s.log = some (t, b) → b < s.nextB
  sigs : ∀ b ks, s.sigs b = some ks → ks = tasksOf b s.log ∧ Sent b s.log
  get : ∀ t b ks, Frame.get b ks ∈ s.stk t → (∃ xs, tasksOf b s.log = xs ++ ks ∧ ∀ x ∈ xs, Done x s.log) ∧ Sent b s.log

theorem sgn_init : Sgn init := by constructor <;> simp [init, Maf.Bcast.sending]

theorem Sgn.keep {s s' : State} (h : Sgn s) {es : List Ev} (hl : s'.log = s.log ++ es) (hB : s'.nextB = s.nextB) (hs : Maf.Bcast.sending s'.log = Maf.Bcast.sending s.log) (hsent : ∀ t b v, Ev.sent t b v ∉ es)
    (ht : ∀ b, Sent b s.log → tasksOf b s'.log = tasksOf b s.log) (hg : ∀ b ks, s'.sigs b = some ks → s.sigs b = some ks)
    (hf : ∀ t b ks, Frame.get b ks ∈ s'.stk t → Frame.get b ks ∈ s.stk t ∨ s.sigs b = some ks ∨ (∃ k, Frame.get b (k :: ks) ∈ s.stk t ∧ Done k s.log)) : Sgn s' := by
  obtain ⟨h1, h2, h3, h4⟩ := h
  refine ⟨?_, ?_, ?_, ?_⟩
  · intro t b v hv
    rw [hl, List.mem_append] at hv
    rw [hs, hB]
    rcases hv with hv | hv
    · exact h1 t b v hv
    · exact absurd hv (hsent t b v)
  · intro t b hb; rw [hs] at hb; rw [hB]; exact h2 t b hb
  · intro b ks hk
    have h5 := h3 b ks (hg b ks hk)
    rw [ht b h5.2, hl]
    exact ⟨h5.1, h5.2.more es⟩
  · intro t b ks hk
    rcases hf t b ks hk with h5 | h5 | ⟨k, h5, h6⟩
    · obtain ⟨⟨xs, h7, h8⟩, h9⟩ := h4 t b ks h5
      rw [ht b h9, hl]
      exact ⟨⟨xs, h7, fun x hx => (h8 x hx).more es⟩, h9.more es⟩
    · obtain ⟨h7, h9⟩ := h3 b ks h5
      rw [ht b h9, hl]
      exact ⟨⟨[], by simp [h7], by simp⟩, h9.more es⟩
    · obtain ⟨⟨xs, h7, h8⟩, h9⟩ := h4 t b (k :: ks) h5
      rw [ht b h9, hl]
      refine ⟨⟨xs ++ [k], by simp [h7], fun x hx => ?_⟩, h9.more es⟩
      simp only [List.mem_append, List.mem_singleton] at hx
      rcases hx with hx | rfl
      · exact (h8 x hx).more es
      · exact h6.more es

theorem sgn_move {home : Tid → Option Pid} {s s' : State} (hm : Move home s s') (ho : Own s) (hc : Cont s) (hb : Bnd s) (ht : Tsk s) (h0 : Sgn s) : Sgn s' := by
  cases hm with
  | use t w h =>
    exact h0.keep (es := []) (by simp) rfl rfl (by simp) (by intro b' _; simp [tasksOf_append, tasksOf_cons, tasksOf_nil, tasksE]) (by intro b' ks' h'; simp only [upd] at h'; grind) (by intro t' b' ks' h'; simp only [upd] at h'; grind)
  | start t m rest h hn =>
    obtain ⟨h1, h2, h3, h4⟩ := h0
    have hfree := ho.free.2 hn
    refine ⟨?_, ?_, ?_, ?_⟩
    · intro t' b' v hv
      simp only [List.mem_append, List.mem_singleton, reduceCtorEq, or_false] at hv
      have h5 := h1 t' b' v hv
      refine ⟨fun t'' => ?_, Nat.lt_succ_of_lt h5.2⟩
      simp only [sending_append, List.foldl, sendingStep, ne_eq, Option.some.injEq, Prod.mk.injEq, not_and]
      exact fun _ e => Nat.lt_irrefl _ (e ▸ h5.2)
    · intro t' b' hb'
      simp only [sending_append, List.foldl, sendingStep, Option.some.injEq, Prod.mk.injEq] at hb'
      rw [← hb'.2]; exact Nat.lt_succ_self _
    · intro b' ks' hk
      have h5 := h3 b' ks' hk
      refine ⟨?_, h5.2.more _⟩
      simp only [tasksOf_append, tasksOf_cons, tasksOf_nil, tasksE, List.append_nil]
      exact h5.1
    · intro t' b' ks' hf
      simp only [upd] at hf
      have h5 : Frame.get b' ks' ∈ s.stk t' := by grind
      obtain ⟨⟨xs, h7, h8⟩, h9⟩ := h4 t' b' ks' h5
      exact ⟨⟨xs, by simp only [tasksOf_append, tasksOf_cons, tasksOf_nil, tasksE, List.append_nil]; exact h7, fun x hx => (h8 x hx).more _⟩, h9.more _⟩
  | unlock t w rest h hn =>
    exact h0.keep (es := []) (by simp) rfl rfl (by simp) (by intro b' _; simp [tasksOf_append, tasksOf_cons, tasksOf_nil, tasksE]) (by intro b' ks' h'; simp only [upd] at h'; grind) (by intro t' b' ks' h'; simp only [upd] at h'; grind)
  | join t p rest h hn hp =>
    exact h0.keep rfl rfl (by simp [sending_append, sendingStep]) (by simp) (by intro b' _; simp [tasksOf_append, tasksOf_cons, tasksOf_nil, tasksE]) (by intro b' ks' h'; simp only [upd] at h'; grind) (by intro t' b' ks' h'; simp only [upd] at h'; grind)
  | leave t p rest h hn hp =>
    exact h0.keep rfl rfl (by simp [sending_append, sendingStep]) (by simp) (by intro b' _; simp [tasksOf_append, tasksOf_cons, tasksOf_nil, tasksE]) (by intro b' ks' h'; simp only [upd] at h'; grind) (by intro t' b' ks' h'; simp only [upd] at h'; grind)
  | skip t b m q qs ks rest h =>
    exact h0.keep rfl rfl (by simp [sending_append, sendingStep]) (by simp) (by intro b' _; simp [tasksOf_append, tasksOf_cons, tasksOf_nil, tasksE]) (by intro b' ks' h'; simp only [upd] at h'; grind) (by intro t' b' ks' h'; simp only [upd] at h'; grind)
  | ask t b m q qs ks rest h =>
    exact h0.keep (es := []) (by simp) rfl rfl (by simp) (by intro b' _; simp [tasksOf_append, tasksOf_cons, tasksOf_nil, tasksE]) (by intro b' ks' h'; simp only [upd] at h'; grind) (by intro t' b' ks' h'; simp only [upd] at h'; grind)
  | send t b m ks rest h =>
    obtain ⟨h1, h2, h3, h4⟩ := h0
    have hcur := ho.sending t b m [] ks (by rw [h]; simp)
    have hks := (hc.sending t b m [] ks (by rw [h]; simp)).1
    refine ⟨?_, ?_, ?_, ?_⟩
    · intro t' b' v hv
      simp only [List.mem_append, List.mem_singleton, Ev.sent.injEq] at hv
      refine ⟨fun t'' => by simp [sending_append, sendingStep], ?_⟩
      rcases hv with hv | ⟨rfl, rfl, rfl⟩
      · exact (h1 t' b' v hv).2
      · exact h2 _ _ hcur
    · intro t' b' hb'; simp [sending_append, sendingStep] at hb'
    · intro b' ks' hk
      simp only [tasksOf_append, tasksOf_cons, tasksOf_nil, tasksE, List.append_nil]
      simp only [upd] at hk
      split at hk
      · next e =>
        subst e
        split at hk
        · cases hk
        · next hne => cases hk; exact ⟨hks, t, by simp [hne]⟩
      · exact ⟨(h3 b' ks' hk).1, (h3 b' ks' hk).2.more _⟩
    · intro t' b' ks' hf
      simp only [upd] at hf
      have h5 : Frame.get b' ks' ∈ s.stk t' := by grind
      obtain ⟨⟨xs, h7, h8⟩, h9⟩ := h4 t' b' ks' h5
      exact ⟨⟨xs, by simp only [tasksOf_append, tasksOf_cons, tasksOf_nil, tasksE, List.append_nil]; exact h7, fun x hx => (h8 x hx).more _⟩, h9.more _⟩
  | inline t b m q qs ks rest h hh =>
    have hcur := ho.posting t b m q qs ks (by rw [h]; simp)
    have hns : ∀ b', Sent b' s.log → b' ≠ b := by
      rintro b' ⟨t', h'⟩ rfl
      exact (h0.sent t' b' true h').1 t hcur
    exact h0.keep rfl rfl (by simp [sending_append, sendingStep]) (by simp) (by intro b' h'; simp [tasksOf_append, tasksOf_cons, tasksOf_nil, tasksE]; exact fun e => hns b' h' e.symm) (by intro b' ks' h'; exact h') (by intro t' b' ks' h'; simp only [upd] at h'; grind)
  | queue t b m q qs ks rest h =>
    have hcur := ho.posting t b m q qs ks (by rw [h]; simp)
    have hns : ∀ b', Sent b' s.log → b' ≠ b := by
      rintro b' ⟨t', h'⟩ rfl
      exact (h0.sent t' b' true h').1 t hcur
    exact h0.keep rfl rfl (by simp [sending_append, sendingStep]) (by simp) (by intro b' h'; simp [tasksOf_append, tasksOf_cons, tasksOf_nil, tasksE]; exact fun e => hns b' h' e.symm) (by intro b' ks' h'; exact h') (by intro t' b' ks' h'; simp only [upd] at h'; grind)
  | refuse t b m q qs ks rest h =>
    exact h0.keep rfl rfl (by simp [sending_append, sendingStep]) (by simp) (by intro b' _; simp [tasksOf_append, tasksOf_cons, tasksOf_nil, tasksE]) (by intro b' ks' h'; simp only [upd] at h'; grind) (by intro t' b' ks' h'; simp only [upd] at h'; grind)
  | take t k b q m hu h hh =>
    exact h0.keep rfl rfl (by simp [sending_append, sendingStep]) (by simp) (by intro b' _; simp [tasksOf_append, tasksOf_cons, tasksOf_nil, tasksE]) (by intro b' ks' h'; simp only [upd] at h'; grind) (by intro t' b' ks' h'; simp only [upd] at h'; grind)
  | finish t k ok rest h =>
    exact h0.keep rfl rfl (by simp [sending_append, sendingStep]) (by simp) (by intro b' _; simp [tasksOf_append, tasksOf_cons, tasksOf_nil, tasksE]) (by intro b' ks' h'; simp only [upd] at h'; grind) (by intro t' b' ks' h'; simp only [upd] at h'; grind)
  | drop k b q m h =>
    exact h0.keep rfl rfl (by simp [sending_append, sendingStep]) (by simp) (by intro b' _; simp [tasksOf_append, tasksOf_cons, tasksOf_nil, tasksE]) (by intro b' ks' h'; simp only [upd] at h'; grind) (by intro t' b' ks' h'; simp only [upd] at h'; grind)
  | get t b ks hu h =>
    exact h0.keep (es := []) (by simp) rfl rfl (by simp) (by intro b' _; simp [tasksOf_append, tasksOf_cons, tasksOf_nil, tasksE]) (by intro b' ks' h'; simp only [upd] at h'; grind) (by intro t' b' ks' h'; simp only [upd] at h'; grind)
  | next t b k ks rest a h ha hd =>
    have hd' : Done k s.log := ht.done k (by unfold stOf; rw [ha]; simp [hd])
    exact h0.keep (es := []) (by simp) rfl rfl (by simp) (by intro b' _; simp [tasksOf_append, tasksOf_cons, tasksOf_nil, tasksE]) (by intro b' ks' h'; simp only [upd] at h'; grind) (by
      intro t' b' ks' h'
      simp only [upd] at h'
      split at h'
      · next e =>
        subst e
        simp only [List.mem_cons, Frame.get.injEq] at h'
        rcases h' with ⟨rfl, rfl⟩ | h'
        · exact .inr (.inr ⟨k, by rw [h]; simp, hd'⟩)
        · exact .inl (by rw [h]; exact List.mem_cons_of_mem _ h')
      · exact .inl h')
  | fail t b k ks rest a h ha hd =>
    exact h0.keep rfl rfl (by simp [sending_append, sendingStep]) (by simp) (by intro b' _; simp [tasksOf_append, tasksOf_cons, tasksOf_nil, tasksE]) (by intro b' ks' h'; simp only [upd] at h'; grind) (by intro t' b' ks' h'; simp only [upd] at h'; grind)
  | ok t b rest h =>
    exact h0.keep rfl rfl (by simp [sending_append, sendingStep]) (by simp) (by intro b' _; simp [tasksOf_append, tasksOf_cons, tasksOf_nil, tasksE]) (by intro b' ks' h'; simp only [upd] at h'; grind) (by intro t' b' ks' h'; simp only [upd] at h'; grind)
  | env st hs =>
    exact h0.keep (es := []) (by simp) rfl rfl (by simp) (by intro b' _; simp [tasksOf_append, tasksOf_cons, tasksOf_nil, tasksE]) (by intro b' ks' h'; simp only [upd] at h'; grind) (by intro t' b' ks' h'; simp only [upd] at h'; grind)

end Maf.Bcast
