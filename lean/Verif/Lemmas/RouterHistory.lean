import Verif.Lemmas.Router
namespace Maf.Route

/-! ### The rules -/

theorem find_some {s : State} {id : Id} {p : Pid} (h : find s id = some p) : p ∈ s.joined ∧ s.idOf p = id := by
  simp only [find] at h
  exact ⟨List.mem_of_find?_eq_some h, by simpa using List.find?_some h⟩

theorem accepts_iff {s : State} (ha : Abs s) {p : Pid} {m : Msg} : accepts s p m = true ↔ Takes s.log p m := by
  simp [accepts, Takes, ha.closed, ha.has]

theorem SweepI.done {s : State} {t : Tid} {m : Msg} {acc : Bool} {k : Kont} (h : SweepI s t m [] acc k) :
    ∃ l1 l2, s.log = l1 ++ .sweepBegin t m :: l2 ∧ Pre s t m l1 k ∧ Sweep l1 l2 t m acc := by
  obtain ⟨l1, l2, h1, h0, h2, h3, h4, h6, h5⟩ := h
  exact ⟨l1, l2, h1, h0, h2, by simpa using h3, h4, h6, h5⟩

theorem Hist_step {s s' : State} {a : Act} (h : Hist EvOk s.log) (ha : Abs s) (ho : OwnI s) (hp : ∀ t, PcI s t (s.pc t)) (hst : StopI s)
    (hs : step s a = some s') : Hist EvOk s'.log := by
  have hlt : ∀ x ∈ s.joined, x < s.nextP := fun x hx => ho.kn x (ho.jk x hx).1
  have hid : ∀ x, x < s.nextP → idIn s.log x = some (s.idOf x) := fun x hx => by rw [ha.ids, if_pos hx]
  have hid0 : idIn s.log s.nextP = none := by rw [ha.ids, if_neg (Nat.lt_irrefl _)]
  have hfn : ∀ id, find s id = none → ∀ q ∈ joinedIn s.log, idIn s.log q ≠ some id := by
    intro id hf q hq
    rw [ha.joined] at hq
    rw [hid q (hlt q hq)]
    simpa using find_none hf q hq
  have hfs : ∀ id q, find s id = some q → q ∈ joinedIn s.log ∧ idIn s.log q = some id ∧ ∃ n, id = .name n := by
    intro id q hf
    obtain ⟨k1, k2⟩ := find_some hf
    exact ⟨by rw [ha.joined]; exact k1, by rw [hid q (hlt q k1), k2], by rw [← k2]; exact (ho.jk q k1).2⟩
  have h1 := hp a.tid
  have h3 := hst a.tid
  peel
  all_goals (try (simp only [endSweep, go]; split))
  all_goals (have hpc := ‹s.pc _ = _›)
  all_goals simp only [Act.tid] at h1 h3
  all_goals rw [hpc] at h1 h3
  all_goals simp only [PcI] at h1
  all_goals (try exact h)
  all_goals (try (refine h.free ?_; simp [EvOk]; done))
  · exact h.one hid0
  · exact h.two hid0 ⟨s.log, .inl ⟨_, rfl⟩⟩
  · -- `create` finds one
    exact h.two (hfs _ _ ‹find s _ = some _›) ⟨s.log, _, _, rfl, h1⟩
  · -- `create` finds none
    exact h.one (hfn _ ‹find s _ = none›)
  · -- too late
    rename_i p _ _ _
    obtain ⟨q, hq⟩ := Option.isSome_iff_exists.1 ‹(find s _).isSome = true›
    have hf := find_some hq
    obtain ⟨n, hn⟩ := (ho.own _ p (by rw [hpc]; rfl)).2.2
    obtain ⟨l1, l2, k1, k2, k0, k3⟩ := h1
    obtain ⟨u, hu⟩ := k3 q hf.1 hf.2
    rw [hn] at k1 k0
    exact h.two ⟨l1, l2, n, u, q, k1, k2, k0, hu, by rw [hid q (hlt q hf.1), hf.2, hn]⟩ ⟨s.log, .inr (.inr rfl)⟩
  · exact absurd hpc (ho.inf _ _ _)
  · -- stopped already
    exact h.one (by simp [EvOk, ha.closed, *])
  · -- stop of an anonymous one
    exact h.one (.inl ⟨h1, _, by rw [hid _ (ho.kn _ (h3 _ rfl)), ‹s.idOf _ = _›]⟩)
  · -- stop: nobody has the id
    exact h.two (hfn _ ‹find s _ = none›) (.inr (.inl ⟨s.log, _, rfl, by simp [idStep, hid _ (ho.kn _ (h3 _ rfl))], h1⟩))
  · -- stop: erased
    have hf := hfs _ _ ‹find s _ = some _›
    exact h.one ⟨hf.1, by rw [hf.2.1, hid _ (ho.kn _ (h3 _ rfl))], h1⟩
  · obtain ⟨l1, l2, k1, -, k2⟩ := h1.done
    exact h.one ⟨l1, l2, k1, k2⟩
  · obtain ⟨l1, l2, k1, ⟨rfl, q, k3⟩, k2⟩ := h1.done
    exact h.two ⟨l1, l2, k1, k2⟩ (.inr (.inr ⟨l1, l2, _, q, by rw [k1], k3, k2⟩))
  · obtain ⟨l1, l2, k1, ⟨rfl, l0, l0', k3, k4, k5⟩, k2⟩ := h1.done
    rename_i t _ acc _ p _
    obtain ⟨n, hn⟩ := (ho.own _ _ (by rw [hpc]; rfl)).2.2
    rw [hn] at k3 k5
    refine h.three ⟨l1, l2, k1, k2⟩ ⟨l0, l0', l2, l1, n, acc, ?_, k3, k5, k4, k2, ?_⟩ ⟨s.log ++ [.sweepEnd t (.status p true) acc], .inr (.inl (by simp))⟩
    · rw [k1, k3]
    · intro q hq
      simp only [joinedIn_append, List.foldl_cons, List.foldl_nil, joinStep, ha.joined] at hq
      simp only [idIn_append, List.foldl_cons, List.foldl_nil, idStep, hid q (hlt q hq)]
      rw [← hn]
      simpa using ho.jn _ _ (by rw [hpc]; rfl) q hq
  · exact h.one (by simp only [EvOk]; rw [ha.has]; assumption)
  · exact h.one (accepts_iff ha)
  · exact h.two (hfn _ ‹find s _ = none›) (.inr ⟨rfl, _, rfl⟩)
  · exact h.one (hfs _ _ ‹find s _ = some _›)
  · obtain ⟨l1, l2, k1, k2⟩ := h1
    exact h.two (accepts_iff ha) (.inl ⟨l1, l2, _, by rw [k1], k2⟩)

structure Full (s : State) : Prop where
  abs : Abs s
  lock : LockI s
  own : OwnI s
  pcs : ∀ t, PcI s t (s.pc t)
  stop : StopI s
  hist : Hist EvOk s.log

theorem Full_init : Full init := by
  refine ⟨⟨rfl, fun _ => rfl, fun _ _ => rfl, fun p => ?_⟩, ?_, ?_, fun _ => trivial, ?_, Hist.nil⟩
  · simp [init, idIn]
  · intro t; simp [init, Pc.holds]
  · constructor <;> simp [init, Pc.own, Pc.joiningOf]
  · intro t p h; cases h

theorem Full_step {s s' : State} {a : Act} (h : Full s) (hs : step s a = some s') : Full s' :=
  ⟨Abs_step h.abs hs, LockI_step h.lock hs, OwnI_step h.own h.lock hs, PcI_step h.pcs h.abs h.own h.lock hs,
    StopI_step h.stop hs, Hist_step h.hist h.abs h.own h.pcs h.stop hs⟩

theorem Full_run {s s' : State} {as : List Act} (h : Full s) (hr : run s as = some s') : Full s' := by
  induction as generalizing s with
  | nil => cases hr; exact h
  | cons a as ih =>
    simp only [run, Option.bind_eq_some_iff] at hr
    obtain ⟨s1, h1, h2⟩ := hr
    exact ih (Full_step h h1) h2

theorem reached {as : List Act} {s : State} (hr : run init as = some s) : Full s := Full_run Full_init hr

end Maf.Route
