import Verif.Lemmas.SendToAllSigs
namespace Maf.Bcast

structure Inv (s : State) : Prop where
  bnd : Bnd s
  own : Own s
  cont : Cont s
  tsk : Tsk s
  org : Org s
  sgn : Sgn s
  hist : Hist EvOk s.log

theorem inv_init : Inv init := ⟨bnd_init, own_init, cont_init, tsk_init, org_init, sgn_init, Hist.nil⟩

theorem hist_move {home : Tid → Option Pid} {s s' : State} (hm : Move home s s') (hi : Inv s) : Hist EvOk s'.log := by
  obtain ⟨hb, ho, hc, ht, hg, hs, hH⟩ := hi
  cases hm with
  | use t w h =>
    exact hH
  | start t m rest h hn =>
    exact hH.one ⟨ho.free.2 hn, fun q => (ho.members q).symm, ho.sorted, fun t' m' js' h' => Nat.lt_irrefl _ (hb.opened _ _ _ _ h')⟩
  | unlock t w rest h hn =>
    exact hH
  | join t p rest h hn hp =>
    exact hH.one ⟨ho.free.2 hn, by rw [ho.members p]; exact hp⟩
  | leave t p rest h hn hp =>
    exact hH.one ⟨ho.free.2 hn, by rw [ho.members p]; exact hp⟩
  | skip t b m q qs ks rest h =>
    exact hH.one ⟨t, ho.sending t b m (q :: qs) ks (by rw [h]; simp)⟩
  | ask t b m q qs ks rest h =>
    exact hH
  | send t b m ks rest h =>
    have h1 := hc.sending t b m [] ks (by rw [h]; simp)
    refine hH.one ⟨ho.sending t b m [] ks (by rw [h]; simp), ⟨m, by simpa using h1.2⟩, ?_⟩
    rw [← h1.1]
    cases ks <;> simp
  | inline t b m q qs ks rest h hh =>
    have hn : ∀ t' q' m', Ev.began t' s.nextT q' m' ∉ s.log := fun t' q' m' h' => by
      have h1 := (ht.began _ _ _ _ h').1
      unfold stOf at h1
      cases e : s.tasks s.nextT with
      | none => rw [e] at h1; exact h1 rfl
      | some a => exact Nat.lt_irrefl _ (hb.tasks _ _ e)
    have hd : Ev.dropped s.nextT ∉ s.log := fun h' => by
      have h1 := ht.dropped _ h'
      unfold stOf at h1
      cases e : s.tasks s.nextT with
      | none => rw [e] at h1; cases h1
      | some a => exact Nat.lt_irrefl _ (hb.tasks _ _ e)
    have hop := (hc.posting t b m q qs ks (by rw [h]; simp)).2
    refine hH.two ⟨⟨t, ho.posting t b m q qs ks (by rw [h]; simp)⟩, fun b' q' h' => Nat.lt_irrefl _ (hb.made _ _ _ h')⟩ ⟨⟨b, t, _, by simp, List.mem_append_left _ hop⟩, ?_, ?_⟩
    · intro t' q' m'; simpa using hn t' q' m'
    · simpa using hd
  | queue t b m q qs ks rest h =>
    exact hH.one ⟨⟨t, ho.posting t b m q qs ks (by rw [h]; simp)⟩, fun b' q' h' => Nat.lt_irrefl _ (hb.made _ _ _ h')⟩
  | refuse t b m q qs ks rest h =>
    exact hH.one ⟨t, ho.posting t b m q qs ks (by rw [h]; simp)⟩
  | take t k b q m hu h hh =>
    obtain ⟨h1, t', js, h2⟩ := hg _ _ h
    have h3 : stOf s k = some .queued := by unfold stOf; rw [h]; rfl
    refine hH.one ⟨⟨b, t', js, h1, h2⟩, fun t' q' m' h' => (ht.began _ _ _ _ h').2.1 h3, fun h' => ?_⟩
    have := ht.dropped _ h'
    rw [h3] at this; cases this
  | finish t k ok rest h =>
    have h1 := ht.frame t k (by rw [h]; simp)
    refine hH.one ⟨ht.running t k h1, fun t' ok' h' => ?_⟩
    have := ht.ended _ _ _ h'
    rw [h1] at this
    cases ok' <;> cases this
  | drop k b q m h =>
    have h1 := (hg _ _ h).1
    have h3 : stOf s k = some .queued := by unfold stOf; rw [h]; rfl
    refine hH.one ⟨⟨b, q, h1⟩, fun t' q' m' h' => (ht.began _ _ _ _ h').2.1 h3, fun h' => ?_⟩
    have := ht.dropped _ h'
    rw [h3] at this; cases this
  | get t b ks hu h =>
    exact hH
  | next t b k ks rest a h ha hd =>
    exact hH
  | fail t b k ks rest a h ha hd =>
    obtain ⟨⟨xs, h1, h2⟩, h3⟩ := hs.get t b (k :: ks) (by rw [h]; simp)
    refine hH.one ⟨h3, xs, k, ks, h1, h2, ?_⟩
    have h4 : stOf s k = some a.st := by unfold stOf; rw [ha]; rfl
    rcases hd with hd | hd
    · exact .inl (ht.threw k (by rw [h4, hd]))
    · exact .inr (ht.broken k (by rw [h4, hd]))
  | ok t b rest h =>
    obtain ⟨⟨xs, h1, h2⟩, h3⟩ := hs.get t b [] (by rw [h]; simp)
    refine hH.one ⟨h3, fun k hk => h2 k ?_⟩
    rw [h1] at hk
    simpa using hk
  | env st hs =>
    exact hH

theorem inv_move {home : Tid → Option Pid} {s s' : State} (hm : Move home s s') (hi : Inv s) : Inv s' :=
  ⟨bnd_move hm hi.bnd, own_move hm hi.own, cont_move hm hi.bnd hi.own hi.cont, tsk_move hm hi.bnd hi.tsk, org_move hm hi.cont hi.org, sgn_move hm hi.own hi.cont hi.bnd hi.tsk hi.sgn, hist_move hm hi⟩

theorem run_inv {home : Tid → Option Pid} {as : List Act} {s s' : State} (hi : Inv s) (h : run home s as = some s') : Inv s' := by
  induction as generalizing s with
  | nil => cases h; exact hi
  | cons a as ih =>
    simp only [run, Option.bind_eq_some_iff] at h
    obtain ⟨s1, h1, h2⟩ := h
    exact ih (inv_move (step_move h1) hi) h2

end Maf.Bcast
