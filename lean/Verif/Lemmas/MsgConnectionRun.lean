import Verif.Lemmas.MsgConnection

/-! Every step keeps the invariants. -/

namespace Maf.Conn

theorem core_eq {s t : State} (h : Core s) (h1 : t.map = s.map) (h2 : t.slots = s.slots) (h3 : t.hubs = s.hubs) (h4 : t.objs = s.objs) (h5 : t.next = s.next) : Core t := by
  refine ⟨?_, ?_, ?_, ?_, ?_, ?_, ?_, ?_, ?_⟩
  · rw [h3, h4, h5]; exact h.known
  · rw [h4, h5]; exact h.fresh
  · rw [h1, h3]; exact h.hub
  · rw [h1, h4]; exact h.home
  · rw [h1]; exact h.inj
  · rw [h2, h4]; exact h.slot
  · rw [h2]; exact h.nodup
  · rw [h2, h4]; intro k o hk hr ha
    exact h.ref k o hk hr (by unfold State.alive at ha ⊢; rw [h1] at ha; exact ha)
  · rw [h4]; exact h.full

/-- fewer signals -/
theorem core_less {s : State} (h : Core s) {map : Nat → Nat → Option Nat} (hm : ∀ p m x, map p m = some x → s.map p m = some x) : Core { s with map := map } :=
  ⟨h.known, h.fresh, fun p m x hx => h.hub p m x (hm p m x hx), fun p m k o hk hx => h.home p m k o hk (hm p m _ hx),
    fun p m q n x h1 h2 => h.inj p m q n x (hm p m x h1) (hm q n x h2), h.slot, h.nodup,
    fun k o hk hr ha => h.ref k o hk hr (alive_iff.mpr (hm _ _ _ (alive_iff.mp ha))), h.full⟩

theorem held_lt {s : State} (hI : Inv s) {k : Nat} (h : s.held k) : k < s.next := by
  obtain ⟨o, ho, -⟩ := hI.own.live k h
  exact (hI.core.known k o ho).1

theorem hubFor_spec {s : State} (h : Core s) (p m : Nat) : Core (s.hubFor p m).1 ∧ (s.hubFor p m).1.map p m = some (s.hubFor p m).2 ∧
    (s.hubFor p m).1.objs = s.objs ∧ (s.hubFor p m).1.next = s.next ∧ (s.hubFor p m).1.vars = s.vars ∧ (s.hubFor p m).1.groups = s.groups ∧
    (s.hubFor p m).1.log = s.log ∧ (s.hubFor p m).1.ub = s.ub ∧ (∀ q n, (s.hubFor p m).1.called q n = s.called q n) := by
  unfold State.hubFor
  cases hm : s.map p m with
  | some x => exact ⟨h, hm, rfl, rfl, rfl, rfl, rfl, rfl, fun _ _ => rfl⟩
  | none =>
    dsimp only
    have hempty : s.slots s.hubs = [] := by
      cases hs : s.slots s.hubs with
      | nil => rfl
      | cons k l =>
        obtain ⟨o, ho, e, -⟩ := h.slot s.hubs k (by rw [hs]; simp)
        have := (h.known k o ho).2
        omega
    have hslots : upd s.slots s.hubs [] = s.slots := by
      funext j; unfold upd; split
      · next e => rw [e, hempty]
      · rfl
    have hmap : ∀ q n x, upd2 s.map p m (some s.hubs) q n = some x → (q = p ∧ n = m ∧ x = s.hubs) ∨ (¬ (q = p ∧ n = m) ∧ s.map q n = some x) := by
      intro q n x hx
      unfold upd2 at hx; split at hx
      · next e => exact .inl ⟨e.1, e.2, by cases hx; rfl⟩
      · next e => exact .inr ⟨e, hx⟩
    refine ⟨⟨?_, h.fresh, ?_, ?_, ?_, ?_, ?_, ?_, h.full⟩, ?_, rfl, rfl, rfl, rfl, rfl, rfl, ?_⟩
    · intro k o hk
      have := h.known k o hk
      exact ⟨this.1, Nat.lt_succ_of_lt this.2⟩
    · intro q n x hx
      rcases hmap q n x hx with ⟨-, -, rfl⟩ | ⟨-, hx⟩
      · exact Nat.lt_succ_self _
      · exact Nat.lt_succ_of_lt (h.hub q n x hx)
    · intro q n k o hk hx
      rcases hmap q n _ hx with ⟨-, -, e⟩ | ⟨-, hx⟩
      · have := (h.known k o hk).2; omega
      · exact h.home q n k o hk hx
    · intro q n q' n' x h1 h2
      rcases hmap q n x h1 with ⟨a1, a2, a3⟩ | ⟨-, h1'⟩
      · rcases hmap q' n' _ h2 with ⟨b1, b2, -⟩ | ⟨-, h2'⟩
        · exact ⟨a1.trans b1.symm, a2.trans b2.symm⟩
        · have := h.hub _ _ _ h2'; omega
      · rcases hmap q' n' x h2 with ⟨-, -, b3⟩ | ⟨-, h2'⟩
        · have := h.hub _ _ _ h1'; omega
        · exact h.inj q n q' n' x h1' h2'
    · show ∀ h' k, k ∈ upd s.slots s.hubs [] h' → _
      rw [hslots]; exact h.slot
    · show ∀ h', (upd s.slots s.hubs [] h').Nodup
      rw [hslots]; exact h.nodup
    · intro k o hk hr ha
      show k ∈ upd s.slots s.hubs [] o.hub
      rw [hslots]
      rcases hmap _ _ _ (alive_iff.mp ha) with ⟨-, -, e⟩ | ⟨-, ha⟩
      · have := (h.known k o hk).2; omega
      · exact h.ref k o hk hr (alive_iff.mpr ha)
    · show upd2 s.map p m (some s.hubs) p m = _
      unfold upd2; rw [if_pos ⟨rfl, rfl⟩]
    · intro q n
      unfold State.called
      show (match upd2 s.map p m (some s.hubs) q n with | some h => upd s.slots s.hubs [] h | none => []) = _
      rw [hslots]
      unfold upd2
      by_cases e : q = p ∧ n = m
      · rw [if_pos e, e.1, e.2, hm]; exact hempty
      · rw [if_neg e]; rfl

theorem join_core {s : State} (h : Core s) {p m x : Nat} (hm : s.map p m = some x) (v : Nat) : Core (s.join p m x v) := by
  have hobj : ∀ j o', (upd s.objs s.next (some ⟨p, m, x, .ref, false⟩)) j = some o' → (j = s.next ∧ o' = ⟨p, m, x, .ref, false⟩) ∨ (j ≠ s.next ∧ s.objs j = some o') := by
    intro j o' h
    unfold upd at h; split at h
    · next e => exact .inl ⟨e, by cases h; rfl⟩
    · next e => exact .inr ⟨e, h⟩
  have hnew : ∀ y, s.next ∉ s.slots y := by
    intro y hy
    obtain ⟨o, ho, -⟩ := h.slot y _ hy
    have := (h.known _ o ho).1; omega
  refine ⟨?_, ?_, h.hub, ?_, h.inj, ?_, ?_, ?_, ?_⟩
  · intro j o' hj
    rcases hobj j o' hj with ⟨rfl, rfl⟩ | ⟨-, hj⟩
    · exact ⟨Nat.lt_succ_self _, h.hub p m x hm⟩
    · have := h.known j o' hj
      exact ⟨Nat.lt_succ_of_lt this.1, this.2⟩
  · intro j hj
    have hj : s.next + 1 ≤ j := hj
    show upd s.objs s.next _ j = none
    rw [upd_ne _ _ (by omega)]; exact h.fresh j (by omega)
  · intro q n j o' hj hx
    rcases hobj j o' hj with ⟨rfl, rfl⟩ | ⟨-, hj⟩
    · exact h.inj q n p m x hx hm
    · exact h.home q n j o' hj hx
  · intro y j hj
    have hj0 : j ∈ upd s.slots x (s.slots x ++ [s.next]) y := hj
    have : (j ∈ s.slots y) ∨ (j = s.next ∧ y = x) := by
      unfold upd at hj0; split at hj0
      · next e =>
        subst e
        rcases List.mem_append.mp hj0 with hj1 | hj1
        · exact .inl hj1
        · exact .inr ⟨List.mem_singleton.mp hj1, rfl⟩
      · exact .inl hj0
    rcases this with hm' | ⟨rfl, rfl⟩
    · obtain ⟨o', ho', e', hr⟩ := h.slot y j hm'
      have : j ≠ s.next := by rintro rfl; exact hnew y hm'
      exact ⟨o', by show upd s.objs s.next _ j = _; rw [upd_ne _ _ this]; exact ho', e', hr⟩
    · exact ⟨_, upd_same _ _ _, rfl, fun _ => rfl⟩
  · intro y
    show (upd s.slots x (s.slots x ++ [s.next]) y).Nodup
    unfold upd; split
    · rw [List.nodup_append]
      refine ⟨h.nodup _, by simp, ?_⟩
      intro a ha b hb
      rw [List.mem_singleton.mp hb]
      rintro rfl; exact hnew _ ha
    · exact h.nodup y
  · intro j o' hj hr ha
    show j ∈ upd s.slots x (s.slots x ++ [s.next]) o'.hub
    rcases hobj j o' hj with ⟨rfl, rfl⟩ | ⟨hne, hj⟩
    · show s.next ∈ upd s.slots x (s.slots x ++ [s.next]) x
      rw [upd_same]; simp
    · have := h.ref j o' hj hr ha
      unfold upd; split
      · next e => rw [← e]; exact List.mem_append.mpr (.inl this)
      · exact this
  · intro j o' hj
    rcases hobj j o' hj with ⟨rfl, rfl⟩ | ⟨-, hj⟩
    · simp
    · exact h.full j o' hj

theorem join_called {s : State} (h : Core s) {p m x : Nat} (hm : s.map p m = some x) (v q n : Nat) :
    (s.join p m x v).called q n = if q = p ∧ n = m then s.called q n ++ [s.next] else s.called q n := by
  unfold State.called
  show (match s.map q n with | some y => upd s.slots x (s.slots x ++ [s.next]) y | none => []) = _
  by_cases e : q = p ∧ n = m
  · rw [if_pos e, e.1, e.2, hm]; exact upd_same _ _ _
  · rw [if_neg e]
    cases hq : s.map q n with
    | none => rfl
    | some y =>
      dsimp only
      refine upd_ne _ _ ?_
      rintro rfl; exact e (h.inj q n p m y hq hm)

/-! ### Handles -/

/-- handles change, the connections do not -/
theorem own_moved {s t : State} (h : Own s) (hobj : t.objs = s.objs) (hub : t.ub = s.ub)
    (hheld : ∀ k, t.held k → s.held k)
    (vv : ∀ v w k, t.vars v = some (some k) → t.vars w = some (some k) → v = w)
    (vg : ∀ v g l k, t.vars v = some (some k) → t.groups g = some l → some k ∉ l)
    (gg : ∀ g g' l l' k, t.groups g = some l → t.groups g' = some l' → some k ∈ l → some k ∈ l' → g = g')
    (one : ∀ g l k, t.groups g = some l → l.count (some k) ≤ 1)
    (kept : ∀ k, s.held k ∨ .overwritten k ∈ s.log → t.held k ∨ .overwritten k ∈ t.log) : Own t :=
  ⟨hub.trans h.ub, fun k hk => by rw [hobj]; exact h.live k (hheld k hk), vv, vg, gg, one, fun k o ho hd => kept k (h.kept k o (hobj ▸ ho) hd)⟩

theorem moveNew_own {s t : State} (h : Own s) {v w : Nat} (hs : Conn.moveNew s v w = some t) : Own t ∧ t.map = s.map ∧ t.slots = s.slots ∧ t.hubs = s.hubs ∧ t.objs = s.objs ∧ t.next = s.next := by
  unfold Conn.moveNew at hs
  split at hs
  case h_2 => cases hs
  case h_1 x hv hw =>
  cases hs
  refine ⟨?_, rfl, rfl, rfl, rfl, rfl⟩
  have hne : v ≠ w := by rintro rfl; rw [hv] at hw; cases hw
  have hvar : ∀ a, upd (upd s.vars w (some none)) v (some x) a = if a = v then some x else if a = w then some none else s.vars a := by
    intro a; unfold upd; rfl
  -- which variable had it before
  have back : ∀ a k, upd (upd s.vars w (some none)) v (some x) a = some (some k) → s.vars (if a = v then w else a) = some (some k) := by
    intro a k ha
    rw [hvar] at ha
    split at ha
    · next e => rw [if_pos e, hw]; cases ha; rfl
    · next e =>
      rw [if_neg e]
      split at ha
      · cases ha
      · exact ha
  refine own_moved h rfl rfl ?_ ?_ ?_ h.gg h.one ?_
  · rintro k (⟨a, ha⟩ | hg)
    · exact .inl ⟨_, back a k ha⟩
    · exact .inr hg
  · intro a b k ha hb
    have ha' := ha; have hb' := hb
    have := h.vv _ _ k (back a k ha) (back b k hb)
    rw [show (((s.setVar w (some none)).setVar v (some x)).vars a) = _ from hvar a] at ha'
    rw [show (((s.setVar w (some none)).setVar v (some x)).vars b) = _ from hvar b] at hb'
    by_cases ea : a = v <;> by_cases eb : b = v
    · rw [ea, eb]
    · rw [if_pos ea, if_neg eb] at this; rw [if_neg eb, if_pos this.symm] at hb'; cases hb'
    · rw [if_neg ea, if_pos eb] at this; rw [if_neg ea, if_pos this] at ha'; cases ha'
    · rw [if_neg ea, if_neg eb] at this; exact this
  · intro a g l k ha hg
    exact h.vg _ g l k (back a k ha) hg
  · rintro k ((⟨a, ha⟩ | hg) | hl)
    · refine .inl (.inl ?_)
      by_cases e : a = w
      · refine ⟨v, ?_⟩
        show upd (upd s.vars w (some none)) v (some x) v = _
        rw [hvar, if_pos rfl]; rw [e, hw] at ha; exact ha
      · refine ⟨a, ?_⟩
        show upd (upd s.vars w (some none)) v (some x) a = _
        have : a ≠ v := by rintro rfl; rw [hv] at ha; cases ha
        rw [hvar, if_neg this, if_neg e]; exact ha
    · exact .inl (.inr hg)
    · exact .inr hl

theorem lose_eq (s : State) (x : Option Nat) : (s.lose x).vars = s.vars ∧ (s.lose x).groups = s.groups ∧ (s.lose x).objs = s.objs ∧ (s.lose x).map = s.map ∧ (s.lose x).slots = s.slots ∧
    (s.lose x).hubs = s.hubs ∧ (s.lose x).next = s.next ∧ (s.lose x).ub = s.ub ∧ (∀ e, e ∈ s.log → e ∈ (s.lose x).log) ∧ (∀ k, x = some k → .overwritten k ∈ (s.lose x).log) := by
  cases x with
  | none => exact ⟨rfl, rfl, rfl, rfl, rfl, rfl, rfl, rfl, fun _ h => h, fun k h => by cases h⟩
  | some k =>
    refine ⟨rfl, rfl, rfl, rfl, rfl, rfl, rfl, rfl, fun _ h => List.mem_append.mpr (.inl h), fun j h => ?_⟩
    cases h; exact List.mem_append.mpr (.inr (List.mem_singleton.mpr rfl))

theorem assign_own {s t : State} (h : Own s) {v w : Nat} (hs : Conn.assign s v w = some t) : Own t ∧ t.map = s.map ∧ t.slots = s.slots ∧ t.hubs = s.hubs ∧ t.objs = s.objs ∧ t.next = s.next := by
  unfold Conn.assign at hs
  split at hs
  case h_2 => cases hs
  case h_1 x y hv hw =>
  cases hs
  obtain ⟨e1, e2, e3, e4, e5, e6, e7, e8, e9, e10⟩ := lose_eq s x
  refine ⟨?_, e4, e5, e6, e3, e7⟩
  have hvar : ∀ a, (((s.lose x).setVar v (some y)).setVar w (some none)).vars a = if a = w then some none else if a = v then some y else s.vars a := by
    intro a; show upd (upd (s.lose x).vars v (some y)) w (some none) a = _; rw [e1]; unfold upd; rfl
  have back : ∀ a k, (((s.lose x).setVar v (some y)).setVar w (some none)).vars a = some (some k) → a ≠ w ∧ s.vars (if a = v then w else a) = some (some k) := by
    intro a k ha
    rw [hvar] at ha
    split at ha
    · cases ha
    · next e =>
      refine ⟨e, ?_⟩
      split at ha
      · next e => rw [if_pos e, hw]; cases ha; rfl
      · next e => rw [if_neg e]; exact ha
  refine own_moved h e3 e8 ?_ ?_ ?_ ?_ ?_ ?_
  · rintro k (⟨a, ha⟩ | ⟨g, l, hg, hl⟩)
    · exact .inl ⟨_, (back a k ha).2⟩
    · exact .inr ⟨g, l, by rw [← hg]; exact (congrFun e2 g).symm, hl⟩
  · intro a b k ha hb
    have := h.vv _ _ k (back a k ha).2 (back b k hb).2
    by_cases ea : a = v <;> by_cases eb : b = v
    · rw [ea, eb]
    · rw [if_pos ea, if_neg eb] at this; exact absurd this.symm (back b k hb).1
    · rw [if_neg ea, if_pos eb] at this; exact absurd this (back a k ha).1
    · rw [if_neg ea, if_neg eb] at this; exact this
  · intro a g l k ha hg
    exact h.vg _ g l k (back a k ha).2 ((congrFun e2 g).symm.trans hg)
  · intro g g' l l' k h1 h2
    exact h.gg g g' l l' k ((congrFun e2 g).symm.trans h1) ((congrFun e2 g').symm.trans h2)
  · intro g l k h1; exact h.one g l k ((congrFun e2 g).symm.trans h1)
  · rintro k ((⟨a, ha⟩ | ⟨g, l, hg, hl⟩) | hl)
    · by_cases ew : a = w
      · by_cases evw : v = w
        · -- moved onto itself
          have hva := ha; rw [ew, ← evw, hv] at hva
          exact .inr (e10 k (Option.some.inj hva))
        · refine .inl (.inl ⟨v, ?_⟩)
          rw [hvar, if_neg evw, if_pos rfl, ← hw, ← ew]; exact ha
      · by_cases ev : a = v
        · rw [ev, hv] at ha
          exact .inr (e10 k (Option.some.inj ha))
        · refine .inl (.inl ⟨a, ?_⟩)
          rw [hvar, if_neg ew, if_neg ev]; exact ha
    · exact .inl (.inr ⟨g, l, (congrFun e2 g).trans hg, hl⟩)
    · exact .inr (e9 _ hl)

theorem groupAdd_own {s t : State} (h : Own s) {g v : Nat} (hs : Conn.groupAdd s g v = some t) : Own t ∧ t.map = s.map ∧ t.slots = s.slots ∧ t.hubs = s.hubs ∧ t.objs = s.objs ∧ t.next = s.next := by
  unfold Conn.groupAdd at hs
  split at hs
  case h_2 => cases hs
  case h_1 l x hg hv =>
  cases hs
  refine ⟨?_, rfl, rfl, rfl, rfl, rfl⟩
  have hvar : ∀ a, upd s.vars v (some none) a = if a = v then some none else s.vars a := fun a => rfl
  have bv : ∀ a k, upd s.vars v (some none) a = some (some k) → a ≠ v ∧ s.vars a = some (some k) := by
    intro a k ha
    rw [hvar] at ha; split at ha
    · cases ha
    · next e => exact ⟨e, ha⟩
  have bg : ∀ g' l' k, upd s.groups g (some (l ++ [x])) g' = some l' → some k ∈ l' → (∃ l0, s.groups g' = some l0 ∧ some k ∈ l0) ∨ (g' = g ∧ x = some k) := by
    intro g' l' k hg' hk
    unfold upd at hg'; split at hg'
    · next e =>
      cases hg'
      rcases List.mem_append.mp hk with hk | hk
      · exact .inl ⟨l, by rw [e]; exact hg, hk⟩
      · exact .inr ⟨e, (List.mem_singleton.mp hk).symm⟩
    · exact .inl ⟨l', hg', hk⟩
  refine own_moved h rfl rfl ?_ ?_ ?_ ?_ ?_ ?_
  · rintro k (⟨a, ha⟩ | ⟨g', l', hg', hk⟩)
    · exact .inl ⟨a, (bv a k ha).2⟩
    · rcases bg g' l' k hg' hk with ⟨l0, h1, h2⟩ | ⟨-, rfl⟩
      · exact .inr ⟨g', l0, h1, h2⟩
      · exact .inl ⟨v, hv⟩
  · intro a b k ha hb
    exact h.vv a b k (bv a k ha).2 (bv b k hb).2
  · intro a g' l' k ha hg' hk
    obtain ⟨e, ha1⟩ := bv a k ha
    rcases bg g' l' k hg' hk with ⟨l0, h1, h2⟩ | ⟨-, hx⟩
    · exact h.vg a g' l0 k ha1 h1 h2
    · exact e (h.vv a v k ha1 (by rw [hv, hx]))
  · intro g1 g2 l1 l2 k h1 h2 k1 k2
    rcases bg g1 l1 k h1 k1 with ⟨m1, a1, b1⟩ | ⟨rfl, rfl⟩
    · rcases bg g2 l2 k h2 k2 with ⟨m2, a2, b2⟩ | ⟨rfl, rfl⟩
      · exact h.gg g1 g2 m1 m2 k a1 a2 b1 b2
      · exact absurd b1 (h.vg v g1 m1 k hv a1)
    · rcases bg g2 l2 k h2 k2 with ⟨m2, a2, b2⟩ | ⟨rfl, -⟩
      · exact absurd b2 (h.vg v g2 m2 k hv a2)
      · rfl
  · intro g' l' k hg'
    have hg0 : upd s.groups g (some (l ++ [x])) g' = some l' := hg'
    unfold upd at hg0; split at hg0
    · cases hg0
      rw [List.count_append]
      have h1 := h.one g l k hg
      by_cases e : x = some k
      · have : l.count (some k) = 0 := List.count_eq_zero.mpr (h.vg v g l k (by rw [hv, e]) hg)
        have : [x].count (some k) ≤ 1 := List.count_le_length
        omega
      · have : [x].count (some k) = 0 := List.count_eq_zero.mpr (by simp; intro h; exact e h.symm)
        omega
    · exact h.one g' l' k hg0
  · rintro k ((⟨a, ha⟩ | ⟨g', l', hg', hk⟩) | hl)
    · by_cases e : a = v
      · refine .inl (.inr ⟨g, l ++ [x], upd_same _ _ _, ?_⟩)
        rw [e, hv] at ha
        exact List.mem_append.mpr (.inr (List.mem_singleton.mpr (Option.some.inj ha).symm))
      · exact .inl (.inl ⟨a, by show upd s.vars v _ a = _; rw [upd_ne _ _ e]; exact ha⟩)
    · by_cases e : g' = g
      · subst e
        rw [hg] at hg'; cases hg'
        exact .inl (.inr ⟨g', l ++ [x], upd_same _ _ _, List.mem_append.mpr (.inl hk)⟩)
      · exact .inl (.inr ⟨g', l', by show upd s.groups g _ g' = _; rw [upd_ne _ _ e]; exact hg', hk⟩)
    · exact .inr hl

theorem step_live {s t : State} {a : Act} (h : step s a = some t) : live s a = some t := by
  unfold step at h; split at h
  · cases h
  · exact h

theorem onVar_some {s t : State} {v : Nat} {f : Option Nat → State} (h : onVar s v f = some t) : ∃ x, s.vars v = some x ∧ t = f x := by
  unfold onVar at h; split at h
  · next x hx => exact ⟨x, hx, by cases h; rfl⟩
  · cases h

theorem onGroup_some {s t : State} {g : Nat} {f : List (Option Nat) → State} (h : onGroup s g f = some t) : ∃ l, s.groups g = some l ∧ t = f l := by
  unfold onGroup at h; split at h
  · next x hx => exact ⟨x, hx, by cases h; rfl⟩
  · cases h

theorem group_live {s : State} (hI : Inv s) {g : Nat} {l : List (Option Nat)} (hg : s.groups g = some l) (k : Nat) (hk : some k ∈ l) : ∃ o, s.objs k = some o ∧ o.deleted = false :=
  hI.own.live k (.inr ⟨g, l, hg, hk⟩)

theorem var_live {s : State} (hI : Inv s) {v k : Nat} (hv : s.vars v = some (some k)) : ∃ o, s.objs k = some o ∧ o.deleted = false :=
  hI.own.live k (.inl ⟨v, hv⟩)

theorem inv_step {s t : State} {a : Act} (hI : Inv s) (hs : step s a = some t) : Inv t := by
  have hs := step_live hs
  cases a with
  | connect p m v =>
    simp only [live, Conn.connect] at hs
    split at hs
    case h_2 => cases hs
    case h_1 hv =>
    cases hs
    obtain ⟨h1, h2, h3, h4, h5, h6, h7, h8, -⟩ := hubFor_spec hI.core p m
    refine ⟨join_core h1 h2 v, ?_⟩
    have hvar : ∀ a k, ((s.hubFor p m).1.join p m (s.hubFor p m).2 v).vars a = some (some k) → (a = v ∧ k = s.next) ∨ (a ≠ v ∧ s.vars a = some (some k)) := by
      intro a k ha
      have ha : upd (s.hubFor p m).1.vars v (some (some (s.hubFor p m).1.next)) a = _ := ha
      rw [h5, h4] at ha
      unfold upd at ha; split at ha
      · next e => exact .inl ⟨e, by cases ha; rfl⟩
      · next e => exact .inr ⟨e, ha⟩
    have hgr : ((s.hubFor p m).1.join p m (s.hubFor p m).2 v).groups = s.groups := h6
    have hob : ((s.hubFor p m).1.join p m (s.hubFor p m).2 v).objs = upd s.objs s.next (some ⟨p, m, (s.hubFor p m).2, .ref, false⟩) := by
      show upd (s.hubFor p m).1.objs (s.hubFor p m).1.next _ = _; rw [h3, h4]
    have hlt : ∀ {k}, s.held k → k ≠ s.next := fun h e => Nat.lt_irrefl _ (e ▸ held_lt hI h)
    refine ⟨h8.trans hI.own.ub, ?_, ?_, ?_, ?_, ?_, ?_⟩
    · rintro k (⟨a, ha⟩ | ⟨g, l, hg, hk⟩)
      · rw [hob]
        rcases hvar a k ha with ⟨-, rfl⟩ | ⟨-, ha⟩
        · exact ⟨_, upd_same _ _ _, rfl⟩
        · rw [upd_ne _ _ (hlt (.inl ⟨a, ha⟩))]; exact var_live hI ha
      · rw [hgr] at hg
        rw [hob, upd_ne _ _ (hlt (.inr ⟨g, l, hg, hk⟩))]; exact group_live hI hg k hk
    · intro a b k ha hb
      rcases hvar a k ha with ⟨rfl, rfl⟩ | ⟨-, ha⟩
      · rcases hvar b _ hb with ⟨rfl, -⟩ | ⟨-, hb⟩
        · rfl
        · exact absurd rfl (hlt (.inl ⟨b, hb⟩))
      · rcases hvar b _ hb with ⟨-, rfl⟩ | ⟨-, hb⟩
        · exact absurd rfl (hlt (.inl ⟨a, ha⟩))
        · exact hI.own.vv a b k ha hb
    · intro a g l k ha hg hk
      rw [hgr] at hg
      rcases hvar a k ha with ⟨-, rfl⟩ | ⟨-, ha⟩
      · exact hlt (.inr ⟨g, l, hg, hk⟩) rfl
      · exact hI.own.vg a g l k ha hg hk
    · rw [hgr]; exact hI.own.gg
    · rw [hgr]; exact hI.own.one
    · intro k o ho hd
      rw [hob] at ho
      by_cases e : k = s.next
      · refine .inl (.inl ⟨v, ?_⟩)
        show upd _ v _ v = _
        rw [upd_same, h4, e]
      · rw [upd_ne _ _ e] at ho
        rcases hI.own.kept k o ho hd with (⟨a, ha⟩ | ⟨g, l, hg, hk⟩) | hl
        · refine .inl (.inl ⟨a, ?_⟩)
          show upd (s.hubFor p m).1.vars v _ a = _
          have : a ≠ v := by rintro rfl; rw [hv] at ha; cases ha
          rw [upd_ne _ _ this, h5]; exact ha
        · exact .inl (.inr ⟨g, l, by rw [hgr]; exact hg, hk⟩)
        · exact .inr (by show _ ∈ (s.hubFor p m).1.log; rw [h7]; exact hl)
  | make v =>
    simp only [live] at hs
    split at hs
    case isFalse => cases hs
    case isTrue hv =>
    cases hs
    refine ⟨core_eq hI.core rfl rfl rfl rfl rfl, ?_⟩
    have hvar : ∀ a k, upd s.vars v (some none) a = some (some k) → s.vars a = some (some k) := by
      intro a k ha
      unfold upd at ha; split at ha
      · cases ha
      · exact ha
    refine own_moved hI.own rfl rfl ?_ ?_ ?_ hI.own.gg hI.own.one ?_
    · rintro k (⟨a, ha⟩ | h)
      · exact .inl ⟨a, hvar a k ha⟩
      · exact .inr h
    · exact fun a b k ha hb => hI.own.vv a b k (hvar a k ha) (hvar b k hb)
    · exact fun a g l k ha hg => hI.own.vg a g l k (hvar a k ha) hg
    · rintro k ((⟨a, ha⟩ | h) | h)
      · refine .inl (.inl ⟨a, ?_⟩)
        show upd _ _ _ _ = _
        have : a ≠ v := by rintro rfl; rw [hv] at ha; cases ha
        rw [upd_ne _ _ this]; exact ha
      · exact .inl (.inr h)
      · exact .inr h
  | moveNew v w =>
    obtain ⟨h1, h2, h3, h4, h5, h6⟩ := moveNew_own hI.own (show Conn.moveNew s v w = some t from hs)
    exact ⟨core_eq hI.core h2 h3 h4 h5 h6, h1⟩
  | assign v w =>
    obtain ⟨h1, h2, h3, h4, h5, h6⟩ := assign_own hI.own (show Conn.assign s v w = some t from hs)
    exact ⟨core_eq hI.core h2 h3 h4 h5 h6, h1⟩
  | groupAdd g v =>
    obtain ⟨h1, h2, h3, h4, h5, h6⟩ := groupAdd_own hI.own (show Conn.groupAdd s g v = some t from hs)
    exact ⟨core_eq hI.core h2 h3 h4 h5 h6, h1⟩
  | destroy v =>
    obtain ⟨x, hv, rfl⟩ := onVar_some (show onVar s v _ = some t from hs)
    have hvar : ∀ a k, upd s.vars v none a = some (some k) → a ≠ v ∧ s.vars a = some (some k) := by
      intro a k ha
      unfold upd at ha; split at ha
      · cases ha
      · next e => exact ⟨e, ha⟩
    cases x with
    | none =>
      refine ⟨core_eq hI.core rfl rfl rfl rfl rfl, ?_⟩
      refine own_moved hI.own rfl rfl ?_ ?_ ?_ hI.own.gg hI.own.one ?_
      · rintro k (⟨a, ha⟩ | h)
        · exact .inl ⟨a, (hvar a k ha).2⟩
        · exact .inr h
      · exact fun a b k ha hb => hI.own.vv a b k (hvar a k ha).2 (hvar b k hb).2
      · exact fun a g l k ha hg => hI.own.vg a g l k (hvar a k ha).2 hg
      · rintro k ((⟨a, ha⟩ | h) | h)
        · refine .inl (.inl ⟨a, ?_⟩)
          show upd _ _ _ _ = _
          have : a ≠ v := by rintro rfl; rw [hv] at ha; cases ha
          rw [upd_ne _ _ this]; exact ha
        · exact .inl (.inr h)
        · exact .inr h
    | some k =>
      obtain ⟨o, ho, hd⟩ := var_live hI hv
      have e : s.del (some k) = s.setObj k { o with deleted := true } := use_live ho hd _
      rw [e]
      refine ⟨core_eq (del_core hI.core ho) rfl rfl rfl rfl rfl, ?_⟩
      have hob : ∀ j, j ≠ k → upd s.objs k (some { o with deleted := true }) j = s.objs j := fun j hj => upd_ne _ _ hj
      refine ⟨hI.own.ub, ?_, ?_, ?_, hI.own.gg, hI.own.one, ?_⟩
      · rintro j (⟨a, ha⟩ | ⟨g, l, hg, hk⟩)
        · obtain ⟨h1, h2⟩ := hvar a j ha
          have : j ≠ k := by rintro rfl; exact h1 (hI.own.vv a v j h2 hv)
          obtain ⟨o', ho', hd'⟩ := var_live hI h2
          exact ⟨o', (hob j this).trans ho', hd'⟩
        · have : j ≠ k := by rintro rfl; exact hI.own.vg v g l j hv hg hk
          obtain ⟨o', ho', hd'⟩ := group_live hI hg j hk
          exact ⟨o', (hob j this).trans ho', hd'⟩
      · exact fun a b j ha hb => hI.own.vv a b j (hvar a j ha).2 (hvar b j hb).2
      · exact fun a g l j ha hg => hI.own.vg a g l j (hvar a j ha).2 hg
      · intro j o' hj hd'
        have hne : j ≠ k := by
          rintro rfl
          have : upd s.objs j (some { o with deleted := true }) j = some o' := hj
          rw [upd_same] at this; cases this; cases hd'
        rcases hI.own.kept j o' ((hob j hne).symm.trans hj) hd' with (⟨a, ha⟩ | h) | h
        · refine .inl (.inl ⟨a, ?_⟩)
          show upd _ _ _ _ = _
          have : a ≠ v := by rintro rfl; rw [hv] at ha; cases ha; exact hne rfl
          rw [upd_ne _ _ this]; exact ha
        · exact .inl (.inr h)
        · exact .inr h
  | disconnect v =>
    obtain ⟨x, hv, rfl⟩ := onVar_some (show onVar s v _ = some t from hs)
    cases x with
    | none => exact hI
    | some k =>
      obtain ⟨o, ho, hd⟩ := var_live hI hv
      have e : s.cutH (some k) = s.cut k o := use_live ho hd _
      rw [e]
      exact ⟨cut_core hI.core ho hd, own_same hI.own (cut_frame s k o) (cut_same ho)⟩
  | reconnect v =>
    obtain ⟨x, hv, rfl⟩ := onVar_some (show onVar s v _ = some t from hs)
    cases x with
    | none => exact hI
    | some k =>
      obtain ⟨o, ho, hd⟩ := var_live hI hv
      have e : s.relinkH (some k) = s.relink k o := use_live ho hd _
      rw [e]
      exact ⟨relink_core hI.core ho hd, own_same hI.own (relink_frame s k o) (relink_same ho)⟩
  | ask v =>
    obtain ⟨x, hv, rfl⟩ := onVar_some (show onVar s v _ = some t from hs)
    have key : ∀ b, Inv { s with log := s.log ++ [.asked v b] } := fun b =>
      ⟨core_eq hI.core rfl rfl rfl rfl rfl, own_moved hI.own rfl rfl (fun _ h => h) hI.own.vv hI.own.vg hI.own.gg hI.own.one
        fun k h => h.imp id fun h => List.mem_append.mpr (.inl h)⟩
    cases x with
    | none => exact key false
    | some k =>
      obtain ⟨o, ho, hd⟩ := var_live hI hv
      have e : s.askH v (some k) = { s with log := s.log ++ [.asked v (s.linked k o)] } :=
        use_live ho hd fun k o => { s with log := s.log ++ [.asked v (s.linked k o)] }
      rw [e]; exact key _
  | groupNew g =>
    simp only [live] at hs
    split at hs
    case isFalse => cases hs
    case isTrue hg =>
    cases hs
    refine ⟨core_eq hI.core rfl rfl rfl rfl rfl, ?_⟩
    have hgr : ∀ g' l, upd s.groups g (some []) g' = some l → l = [] ∨ s.groups g' = some l := by
      intro g' l h
      unfold upd at h; split at h
      · cases h; exact .inl rfl
      · exact .inr h
    refine own_moved hI.own rfl rfl ?_ hI.own.vv ?_ ?_ ?_ ?_
    · rintro k (h | ⟨g', l, h, hk⟩)
      · exact .inl h
      · rcases hgr g' l h with rfl | h
        · cases hk
        · exact .inr ⟨g', l, h, hk⟩
    · intro v g' l k hv h hk
      rcases hgr g' l h with rfl | h
      · cases hk
      · exact hI.own.vg v g' l k hv h hk
    · intro g1 g2 l1 l2 k h1 h2 k1 k2
      rcases hgr g1 l1 h1 with rfl | h1
      · cases k1
      · rcases hgr g2 l2 h2 with rfl | h2
        · cases k2
        · exact hI.own.gg g1 g2 l1 l2 k h1 h2 k1 k2
    · intro g' l k h
      rcases hgr g' l h with rfl | h
      · exact Nat.zero_le _
      · exact hI.own.one g' l k h
    · rintro k ((h | ⟨g', l, h, hk⟩) | h)
      · exact .inl (.inl h)
      · refine .inl (.inr ⟨g', l, ?_, hk⟩)
        show upd _ _ _ _ = _
        have : g' ≠ g := by rintro rfl; rw [hg] at h; cases h
        rw [upd_ne _ _ this]; exact h
      · exact .inr h
  | groupDisconnect g =>
    obtain ⟨l, hg, rfl⟩ := onGroup_some (show onGroup s g _ = some t from hs)
    obtain ⟨h1, h2, h3, -⟩ := cuts hI.core l (group_live hI hg)
    exact ⟨h1, own_same hI.own h2 h3⟩
  | groupDestroy g =>
    obtain ⟨l, hg, rfl⟩ := onGroup_some (show onGroup s g _ = some t from hs)
    obtain ⟨h1, h2, h3, -⟩ := cuts hI.core l (group_live hI hg)
    have hO := own_same hI.own h2 h3
    generalize l.foldl State.cutH s = u at h1 h2 h3 hO
    have hgu : u.groups g = some l := by rw [h2.groups]; exact hg
    have hlive : ∀ k, some k ∈ l → ∃ o, u.objs k = some o ∧ o.deleted = false := fun k hk => hO.live k (.inr ⟨g, l, hgu, hk⟩)
    obtain ⟨a, b, c, d, e⟩ := dels h1 l hlive (fun k => hO.one g l k hgu)
    generalize l.foldl State.del u = w at a b c d e
    refine ⟨core_eq a rfl rfl rfl rfl rfl, ?_⟩
    have hgr : ∀ g' l', upd s.groups g none g' = some l' → g' ≠ g ∧ u.groups g' = some l' := by
      intro g' l' h
      unfold upd at h; split at h
      · cases h
      · next e => exact ⟨e, by rw [h2.groups]; exact h⟩
    have hva : ∀ v, w.vars v = u.vars v := fun v => congrFun b.vars v
    refine ⟨b.ub.trans hO.ub, ?_, ?_, ?_, ?_, ?_, ?_⟩
    · rintro k (⟨v, hv⟩ | ⟨g', l', hg', hk⟩)
      · have hv : u.vars v = some (some k) := (hva v).symm.trans hv
        have := hO.vg v g l k hv hgu
        show ∃ o, w.objs k = some o ∧ _
        rw [d k this]; exact hO.live k (.inl ⟨v, hv⟩)
      · obtain ⟨hne, hg'⟩ := hgr g' l' hg'
        have : some k ∉ l := fun h => hne (hO.gg g' g l' l k hg' hgu hk h)
        show ∃ o, w.objs k = some o ∧ _
        rw [d k this]; exact hO.live k (.inr ⟨g', l', hg', hk⟩)
    · intro v v' k h h'
      exact hO.vv v v' k ((hva v).symm.trans h) ((hva v').symm.trans h')
    · intro v g' l' k h h'
      exact hO.vg v g' l' k ((hva v).symm.trans h) (hgr g' l' h').2
    · intro g1 g2 l1 l2 k h1 h2
      exact hO.gg g1 g2 l1 l2 k (hgr g1 l1 h1).2 (hgr g2 l2 h2).2
    · intro g' l' k h
      exact hO.one g' l' k (hgr g' l' h).2
    · intro k o ho hd
      have ho : w.objs k = some o := ho
      by_cases hk : some k ∈ l
      · obtain ⟨o', ho', -⟩ := hlive k hk
        rw [e k o' hk ho'] at ho; cases ho; cases hd
      · rw [d k hk] at ho
        rcases hO.kept k o ho hd with (⟨v, hv⟩ | ⟨g', l', hg', hk'⟩) | hl
        · exact .inl (.inl ⟨v, (hva v).trans hv⟩)
        · refine .inl (.inr ⟨g', l', ?_, hk'⟩)
          show upd s.groups g none g' = _
          have : g' ≠ g := by rintro rfl; rw [hgu] at hg'; cases hg'; exact hk hk'
          rw [upd_ne _ _ this, ← h2.groups]; exact hg'
        · exact .inr (by show _ ∈ w.log; rw [b.log]; exact hl)
  | disconnectMsg p m =>
    simp only [live] at hs
    cases hs
    refine ⟨core_less hI.core ?_, ⟨hI.own.ub, hI.own.live, hI.own.vv, hI.own.vg, hI.own.gg, hI.own.one, hI.own.kept⟩⟩
    intro q n x hx
    split at hx
    · split at hx
      · cases hx
      · unfold State.cleaned at hx
        split at hx
        · next h e =>
          split at hx
          · cases hx
          · rw [e]; exact hx
        · cases hx
    · exact hx
  | endProc p =>
    simp only [live] at hs
    cases hs
    refine ⟨core_less hI.core ?_, ⟨hI.own.ub, hI.own.live, hI.own.vv, hI.own.vg, hI.own.gg, hI.own.one, hI.own.kept⟩⟩
    intro q n x hx
    split at hx
    · cases hx
    · exact hx
  | post p m =>
    simp only [live] at hs
    cases hs
    exact ⟨core_eq hI.core rfl rfl rfl rfl rfl, own_moved hI.own rfl rfl (fun _ h => h) hI.own.vv hI.own.vg hI.own.gg hI.own.one
        fun k h => h.imp id fun h => List.mem_append.mpr (.inl h)⟩

theorem runs_induct {P : State → Prop} (hstep : ∀ s t a, P s → step s a = some t → P t) {s t : State} {as : List Act} (h0 : P s) (hr : runs s as = some t) : P t := by
  induction as generalizing s with
  | nil => cases hr; exact h0
  | cons a as ih =>
    unfold runs at hr
    cases hs : step s a with
    | none => rw [hs] at hr; cases hr
    | some u => rw [hs] at hr; exact ih (hstep s u a h0 hs) hr

theorem reach_inv {as : List Act} {t : State} (hr : runs State.start as = some t) : Inv t :=
  runs_induct (fun _ _ _ h hs => inv_step h hs) inv_start hr

end Maf.Conn
