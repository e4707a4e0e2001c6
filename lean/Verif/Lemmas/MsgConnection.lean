import Verif.Model.MsgConnection

/-! Invariants of connection handles. -/

namespace Maf.Conn

theorem upd_same {α : Type} (f : Nat → α) (i : Nat) (a : α) : upd f i a i = a := by unfold upd; rw [if_pos rfl]
theorem upd_ne {α : Type} (f : Nat → α) {i j : Nat} (a : α) (h : j ≠ i) : upd f i a j = f j := by unfold upd; rw [if_neg h]

/-- the handles by which a connection can be reached -/
def State.held (s : State) (k : Nat) : Prop := (∃ v, s.vars v = some (some k)) ∨ ∃ g l, s.groups g = some l ∧ some k ∈ l

/-- signals, slots and connections fit together -/
structure Core (s : State) : Prop where
  known : ∀ k o, s.objs k = some o → k < s.next ∧ o.hub < s.hubs
  fresh : ∀ k, s.next ≤ k → s.objs k = none
  hub : ∀ p m h, s.map p m = some h → h < s.hubs
  home : ∀ p m k o, s.objs k = some o → s.map p m = some o.hub → p = o.proc ∧ m = o.msg
  inj : ∀ p m q n h, s.map p m = some h → s.map q n = some h → p = q ∧ m = n
  slot : ∀ h k, k ∈ s.slots h → ∃ o, s.objs k = some o ∧ o.hub = h ∧ (o.deleted = false → o.ctor = .ref)
  nodup : ∀ h, (s.slots h).Nodup
  ref : ∀ k o, s.objs k = some o → o.ctor = .ref → s.alive o = true → k ∈ s.slots o.hub
  full : ∀ k o, s.objs k = some o → o.ctor ≠ .empty

/-- handles and connections -/
structure Own (s : State) : Prop where
  ub : s.ub = false
  live : ∀ k, s.held k → ∃ o, s.objs k = some o ∧ o.deleted = false
  vv : ∀ v w k, s.vars v = some (some k) → s.vars w = some (some k) → v = w
  vg : ∀ v g l k, s.vars v = some (some k) → s.groups g = some l → some k ∉ l
  gg : ∀ g g' l l' k, s.groups g = some l → s.groups g' = some l' → some k ∈ l → some k ∈ l' → g = g'
  one : ∀ g l k, s.groups g = some l → l.count (some k) ≤ 1
  kept : ∀ k o, s.objs k = some o → o.deleted = false → s.held k ∨ .overwritten k ∈ s.log

structure Inv (s : State) : Prop where
  core : Core s
  own : Own s

theorem inv_start : Inv State.start := by
  refine ⟨⟨?_, ?_, ?_, ?_, ?_, ?_, ?_, ?_, ?_⟩, ⟨rfl, ?_, ?_, ?_, ?_, ?_, ?_⟩⟩ <;> simp [State.start, State.held]

/-! ### The effect of a cut, a relink and a deletion -/

/-- what does not change when a connection is worked on -/
structure Frame (s t : State) : Prop where
  map : t.map = s.map
  hubs : t.hubs = s.hubs
  next : t.next = s.next
  vars : t.vars = s.vars
  groups : t.groups = s.groups
  log : t.log = s.log
  ub : t.ub = s.ub

theorem Frame.refl (s : State) : Frame s s := ⟨rfl, rfl, rfl, rfl, rfl, rfl, rfl⟩
theorem Frame.trans {s t u : State} (h : Frame s t) (g : Frame t u) : Frame s u :=
  ⟨g.map.trans h.map, g.hubs.trans h.hubs, g.next.trans h.next, g.vars.trans h.vars, g.groups.trans h.groups, g.log.trans h.log, g.ub.trans h.ub⟩

theorem cut_frame (s : State) (k : Nat) (o : Obj) : Frame s (s.cut k o) := by
  unfold State.cut; split
  · exact ⟨rfl, rfl, rfl, rfl, rfl, rfl, rfl⟩
  · exact .refl s

theorem relink_frame (s : State) (k : Nat) (o : Obj) : Frame s (s.relink k o) := by
  unfold State.relink; split
  · split <;> exact ⟨rfl, rfl, rfl, rfl, rfl, rfl, rfl⟩
  · exact .refl s

theorem use_live {s : State} {k : Nat} {o : Obj} (h : s.objs k = some o) (hd : o.deleted = false) (f : Nat → Obj → State) : s.use (some k) f = f k o := by
  unfold State.use; dsimp only; rw [h]; dsimp only; rw [hd]; rfl

theorem alive_iff {s : State} {o : Obj} : s.alive o = true ↔ s.map o.proc o.msg = some o.hub := by
  unfold State.alive; rw [beq_iff_eq]

theorem inHub_iff {s : State} {k : Nat} {o : Obj} : s.inHub k o = true ↔ s.alive o = true ∧ k ∈ s.slots o.hub := by
  unfold State.inHub; rw [Bool.and_eq_true, List.contains_iff_mem]

/-- after a cut the connection is out of its signal, everything else is as before -/
theorem cut_core {s : State} {k : Nat} {o : Obj} (hI : Core s) (hk : s.objs k = some o) (hd : o.deleted = false) : Core (s.cut k o) := by
  unfold State.cut
  split
  case isFalse => exact hI
  case isTrue hc =>
  obtain ⟨h1, h2⟩ := hc
  rw [inHub_iff] at h2
  have hobj : ∀ j o', (upd s.objs k (some { o with ctor := .own })) j = some o' → (j = k ∧ o' = { o with ctor := .own }) ∨ (j ≠ k ∧ s.objs j = some o') := by
    intro j o' h
    unfold upd at h; split at h
    · next e => exact .inl ⟨e, by cases h; rfl⟩
    · next e => exact .inr ⟨e, h⟩
  refine ⟨?_, ?_, hI.hub, ?_, hI.inj, ?_, ?_, ?_, ?_⟩
  · intro j o' h
    rcases hobj j o' h with ⟨rfl, rfl⟩ | ⟨-, h⟩
    · exact hI.known j o hk
    · exact hI.known j o' h
  · intro j hj
    show upd s.objs k _ j = none
    have : j ≠ k := by rintro rfl; rw [hI.fresh j hj] at hk; cases hk
    rw [upd_ne _ _ this]; exact hI.fresh j hj
  · intro p m j o' h hm
    rcases hobj j o' h with ⟨rfl, rfl⟩ | ⟨-, h⟩
    · exact hI.home p m j o hk hm
    · exact hI.home p m j o' h hm
  · intro h j hj
    have hj' : j ∈ s.slots h ∧ j ≠ k := by
      have hj0 : j ∈ upd s.slots o.hub ((s.slots o.hub).erase k) h := hj
      unfold upd at hj0; split at hj0
      · next e => subst e; exact ((hI.nodup _).mem_erase_iff.mp hj0).symm
      · next e =>
        refine ⟨hj0, ?_⟩
        rintro rfl
        obtain ⟨o', ho', e', -⟩ := hI.slot h j hj0
        rw [hk] at ho'; cases ho'; exact e e'.symm
    obtain ⟨o', ho', e', hr⟩ := hI.slot h j hj'.1
    exact ⟨o', by show upd s.objs k _ j = _; rw [upd_ne _ _ hj'.2]; exact ho', e', hr⟩
  · intro h
    show (upd s.slots o.hub ((s.slots o.hub).erase k) h).Nodup
    unfold upd; split
    · exact (hI.nodup _).erase k
    · exact hI.nodup h
  · intro j o' h hr ha
    rcases hobj j o' h with ⟨rfl, rfl⟩ | ⟨hne, h⟩
    · cases hr
    · have := hI.ref j o' h hr ha
      show j ∈ upd s.slots o.hub ((s.slots o.hub).erase k) o'.hub
      unfold upd; split
      · next e => rw [← e]; exact (hI.nodup _).mem_erase_iff.mpr ⟨hne, this⟩
      · exact this
  · intro j o' h
    rcases hobj j o' h with ⟨rfl, rfl⟩ | ⟨-, h⟩
    · simp
    · exact hI.full j o' h

theorem own_mem {s : State} {k : Nat} {o : Obj} (hI : Core s) (hk : s.objs k = some o) (hd : o.deleted = false) (hr : o.ctor = .own) (h : Nat) : k ∉ s.slots h := by
  intro hm
  obtain ⟨o', ho', -, h'⟩ := hI.slot h k hm
  rw [hk] at ho'; cases ho'
  rw [h' hd] at hr; cases hr

theorem relink_core {s : State} {k : Nat} {o : Obj} (hI : Core s) (hk : s.objs k = some o) (hd : o.deleted = false) : Core (s.relink k o) := by
  unfold State.relink
  split
  case isFalse => exact hI
  case isTrue hc =>
  obtain ⟨h1, h2⟩ := hc
  have hnm := own_mem hI hk hd h1
  rw [if_neg (by rw [List.contains_iff_mem]; exact hnm _)]
  have hobj : ∀ j o', (upd s.objs k (some { o with ctor := .ref })) j = some o' → (j = k ∧ o' = { o with ctor := .ref }) ∨ (j ≠ k ∧ s.objs j = some o') := by
    intro j o' h
    unfold upd at h; split at h
    · next e => exact .inl ⟨e, by cases h; rfl⟩
    · next e => exact .inr ⟨e, h⟩
  refine ⟨?_, ?_, hI.hub, ?_, hI.inj, ?_, ?_, ?_, ?_⟩
  · intro j o' h
    rcases hobj j o' h with ⟨rfl, rfl⟩ | ⟨-, h⟩
    · exact hI.known j o hk
    · exact hI.known j o' h
  · intro j hj
    show upd s.objs k _ j = none
    have : j ≠ k := by rintro rfl; rw [hI.fresh j hj] at hk; cases hk
    rw [upd_ne _ _ this]; exact hI.fresh j hj
  · intro p m j o' h hm
    rcases hobj j o' h with ⟨rfl, rfl⟩ | ⟨-, h⟩
    · exact hI.home p m j o hk hm
    · exact hI.home p m j o' h hm
  · intro h j hj
    have hj0 : j ∈ upd s.slots o.hub (s.slots o.hub ++ [k]) h := hj
    have : (j ∈ s.slots h) ∨ (j = k ∧ h = o.hub) := by
      unfold upd at hj0; split at hj0
      · next e =>
        subst e
        rcases List.mem_append.mp hj0 with hj1 | hj1
        · exact .inl hj1
        · exact .inr ⟨List.mem_singleton.mp hj1, rfl⟩
      · exact .inl hj0
    rcases this with hm | ⟨rfl, rfl⟩
    · obtain ⟨o', ho', e', hr⟩ := hI.slot h j hm
      have : j ≠ k := by rintro rfl; exact hnm h hm
      exact ⟨o', by show upd s.objs k _ j = _; rw [upd_ne _ _ this]; exact ho', e', hr⟩
    · exact ⟨_, upd_same _ _ _, rfl, fun _ => rfl⟩
  · intro h
    show (upd s.slots o.hub (s.slots o.hub ++ [k]) h).Nodup
    unfold upd; split
    · rw [List.nodup_append]
      refine ⟨hI.nodup _, by simp, ?_⟩
      intro a ha b hb
      rw [List.mem_singleton.mp hb]
      rintro rfl; exact hnm _ ha
    · exact hI.nodup h
  · intro j o' h hr ha
    show j ∈ upd s.slots o.hub (s.slots o.hub ++ [k]) o'.hub
    rcases hobj j o' h with ⟨rfl, rfl⟩ | ⟨hne, h⟩
    · show j ∈ upd s.slots o.hub (s.slots o.hub ++ [j]) o.hub
      rw [upd_same]; simp
    · have := hI.ref j o' h hr ha
      unfold upd; split
      · next e => rw [← e]; exact List.mem_append.mpr (.inl this)
      · exact this
  · intro j o' h
    rcases hobj j o' h with ⟨rfl, rfl⟩ | ⟨-, h⟩
    · simp
    · exact hI.full j o' h

theorem del_core {s : State} {k : Nat} {o : Obj} (hI : Core s) (hk : s.objs k = some o) : Core (s.setObj k { o with deleted := true }) := by
  have hobj : ∀ j o', (upd s.objs k (some { o with deleted := true })) j = some o' → (j = k ∧ o' = { o with deleted := true }) ∨ (j ≠ k ∧ s.objs j = some o') := by
    intro j o' h
    unfold upd at h; split at h
    · next e => exact .inl ⟨e, by cases h; rfl⟩
    · next e => exact .inr ⟨e, h⟩
  refine ⟨?_, ?_, hI.hub, ?_, hI.inj, ?_, hI.nodup, ?_, ?_⟩
  · intro j o' h
    rcases hobj j o' h with ⟨rfl, rfl⟩ | ⟨-, h⟩
    · exact hI.known j o hk
    · exact hI.known j o' h
  · intro j hj
    show upd s.objs k _ j = none
    have : j ≠ k := by rintro rfl; rw [hI.fresh j hj] at hk; cases hk
    rw [upd_ne _ _ this]; exact hI.fresh j hj
  · intro p m j o' h hm
    rcases hobj j o' h with ⟨rfl, rfl⟩ | ⟨-, h⟩
    · exact hI.home p m j o hk hm
    · exact hI.home p m j o' h hm
  · intro h j hj
    obtain ⟨o', ho', e', hr⟩ := hI.slot h j hj
    by_cases hjk : j = k
    · subst hjk
      rw [hk] at ho'; cases ho'
      exact ⟨_, upd_same _ _ _, e', by intro h; cases h⟩
    · exact ⟨o', by show upd s.objs k _ j = _; rw [upd_ne _ _ hjk]; exact ho', e', hr⟩
  · intro j o' h hr ha
    rcases hobj j o' h with ⟨rfl, rfl⟩ | ⟨-, h⟩
    · exact hI.ref j o hk hr ha
    · exact hI.ref j o' h hr ha
  · intro j o' h
    rcases hobj j o' h with ⟨rfl, rfl⟩ | ⟨-, h⟩
    · exact hI.full j o hk
    · exact hI.full j o' h

/-- which connections are deleted -/
def State.gone (s : State) (k : Nat) : Prop := ∃ o, s.objs k = some o ∧ o.deleted = true

/-- same connections, same deletions -/
def SameObjs (s t : State) : Prop := ∀ k, (∀ o, s.objs k = some o → ∃ o', t.objs k = some o' ∧ o'.deleted = o.deleted ∧ o'.proc = o.proc ∧ o'.msg = o.msg ∧ o'.hub = o.hub) ∧
  (s.objs k = none → t.objs k = none)

theorem SameObjs.refl (s : State) : SameObjs s s := fun _ => ⟨fun o h => ⟨o, h, rfl, rfl, rfl, rfl⟩, id⟩
theorem SameObjs.trans {s t u : State} (h : SameObjs s t) (g : SameObjs t u) : SameObjs s u := fun k =>
  ⟨fun o ho => by
    obtain ⟨o1, h1, e1, e2, e3, e4⟩ := (h k).1 o ho
    obtain ⟨o2, h2, f1, f2, f3, f4⟩ := (g k).1 o1 h1
    exact ⟨o2, h2, f1.trans e1, f2.trans e2, f3.trans e3, f4.trans e4⟩, fun hn => (g k).2 ((h k).2 hn)⟩

theorem set_same {s : State} {k : Nat} {o o' : Obj} (hk : s.objs k = some o) (h : o'.deleted = o.deleted ∧ o'.proc = o.proc ∧ o'.msg = o.msg ∧ o'.hub = o.hub)
    {t : State} (ht : t.objs = upd s.objs k (some o')) : SameObjs s t := by
  intro j
  rw [ht]
  by_cases e : j = k
  · subst e
    exact ⟨fun o1 h1 => ⟨o', upd_same _ _ _, by rw [hk] at h1; cases h1; exact h⟩, fun hn => by rw [hk] at hn; cases hn⟩
  · rw [upd_ne _ _ e]
    exact ⟨fun o1 h1 => ⟨o1, h1, rfl, rfl, rfl, rfl⟩, id⟩

theorem cut_same {s : State} {k : Nat} {o : Obj} (hk : s.objs k = some o) : SameObjs s (s.cut k o) := by
  unfold State.cut; split
  · exact set_same (o' := { o with ctor := .own }) hk ⟨rfl, rfl, rfl, rfl⟩ rfl
  · exact .refl s

theorem relink_same {s : State} {k : Nat} {o : Obj} (hk : s.objs k = some o) : SameObjs s (s.relink k o) := by
  unfold State.relink; split
  · split
    · exact set_same (o' := { o with ctor := .empty }) hk ⟨rfl, rfl, rfl, rfl⟩ rfl
    · exact set_same (o' := { o with ctor := .ref }) hk ⟨rfl, rfl, rfl, rfl⟩ rfl
  · exact .refl s

theorem own_same {s t : State} (h : Own s) (f : Frame s t) (hs : SameObjs s t) : Own t := by
  have hh : ∀ k, t.held k ↔ s.held k := by intro k; unfold State.held; rw [f.vars, f.groups]
  refine ⟨f.ub.trans h.ub, ?_, ?_, ?_, ?_, ?_, ?_⟩
  · intro k hk
    obtain ⟨o, ho, hd⟩ := h.live k ((hh k).mp hk)
    obtain ⟨o', ho', hd', -⟩ := (hs k).1 o ho
    exact ⟨o', ho', hd'.trans hd⟩
  · rw [f.vars]; exact h.vv
  · rw [f.vars, f.groups]; exact h.vg
  · rw [f.groups]; exact h.gg
  · rw [f.groups]; exact h.one
  · intro k o ho hd
    rw [hh, f.log]
    cases hk : s.objs k with
    | none => rw [(hs k).2 hk] at ho; cases ho
    | some o1 =>
      obtain ⟨o', ho', hd', -⟩ := (hs k).1 o1 hk
      rw [ho] at ho'; cases ho'
      exact h.kept k o1 hk (hd'.symm.trans hd)

/-! ### What a message calls -/

theorem mem_called {s : State} {p m k : Nat} : k ∈ s.called p m ↔ ∃ h, s.map p m = some h ∧ k ∈ s.slots h := by
  unfold State.called
  cases s.map p m with
  | none => simp
  | some h => simp

theorem linked_iff {s : State} {k : Nat} {o : Obj} (hI : Core s) (hk : s.objs k = some o) (hd : o.deleted = false) :
    s.linked k o = true ↔ k ∈ s.called o.proc o.msg := by
  unfold State.linked
  rw [Bool.and_eq_true, beq_iff_eq, inHub_iff, alive_iff, mem_called]
  constructor
  · rintro ⟨-, h1, h2⟩; exact ⟨_, h1, h2⟩
  · rintro ⟨h, h1, h2⟩
    obtain ⟨o', ho', e, hr⟩ := hI.slot h k h2
    rw [hk] at ho'; cases ho'
    subst e
    exact ⟨hr hd, h1, h2⟩

/-- a cut takes exactly this handler away -/
theorem cut_called {s : State} {k : Nat} {o : Obj} (hI : Core s) (hk : s.objs k = some o) (hd : o.deleted = false) (p m : Nat) :
    (s.cut k o).called p m = (s.called p m).filter (· != k) := by
  unfold State.cut
  split
  case isTrue hc =>
    obtain ⟨h1, h2⟩ := hc
    rw [inHub_iff] at h2
    unfold State.called
    show (match s.map p m with | some h => upd s.slots o.hub ((s.slots o.hub).erase k) h | none => []) = _
    cases hm : s.map p m with
    | none => rfl
    | some h =>
      dsimp only
      unfold upd; split
      · next e => rw [e, (hI.nodup _).erase_eq_filter]
      · next e =>
        refine (List.filter_eq_self.mpr ?_).symm
        intro a ha
        rw [bne_iff_ne]; rintro rfl
        obtain ⟨o', ho', e', -⟩ := hI.slot h a ha
        rw [hk] at ho'; cases ho'; exact e e'.symm
  case isFalse hc =>
    refine (List.filter_eq_self.mpr ?_).symm
    intro a ha
    rw [bne_iff_ne]; rintro rfl
    obtain ⟨h, h1, h2⟩ := mem_called.mp ha
    obtain ⟨o', ho', e', hr⟩ := hI.slot h a h2
    rw [hk] at ho'; cases ho'; subst e'
    refine hc ⟨hr hd, inHub_iff.mpr ⟨?_, h2⟩⟩
    obtain ⟨rfl, rfl⟩ := hI.home p m a o hk h1
    exact alive_iff.mpr h1

/-! ### Groups -/

/-- cutting through a list of handles -/
theorem cuts {s : State} (hI : Core s) (l : List (Option Nat)) (hl : ∀ k, some k ∈ l → ∃ o, s.objs k = some o ∧ o.deleted = false) :
    Core (l.foldl State.cutH s) ∧ Frame s (l.foldl State.cutH s) ∧ SameObjs s (l.foldl State.cutH s) ∧
      ∀ p m, (l.foldl State.cutH s).called p m = (s.called p m).filter fun k => !l.contains (some k) := by
  induction l generalizing s with
  | nil => exact ⟨hI, .refl s, .refl s, fun p m => (List.filter_eq_self.mpr fun _ _ => rfl).symm⟩
  | cons x l ih =>
    rw [List.foldl_cons]
    cases x with
    | none =>
      obtain ⟨h1, h2, h3, h4⟩ := ih hI (fun k hk => hl k (List.mem_cons_of_mem _ hk))
      refine ⟨h1, h2, h3, fun p m => (h4 p m).trans ?_⟩
      congr 1
    | some k =>
      obtain ⟨o, ho, hd⟩ := hl k (List.mem_cons_self ..)
      have e : s.cutH (some k) = s.cut k o := use_live ho hd _
      rw [e]
      have hsame := cut_same (s := s) ho
      obtain ⟨h1, h2, h3, h4⟩ := ih (cut_core hI ho hd) (fun j hj => by
        obtain ⟨o', ho', hd'⟩ := hl j (List.mem_cons_of_mem _ hj)
        obtain ⟨o2, h2, e2, -⟩ := (hsame j).1 o' ho'
        exact ⟨o2, h2, e2.trans hd'⟩)
      refine ⟨h1, (cut_frame s k o).trans h2, hsame.trans h3, fun p m => ?_⟩
      rw [h4 p m, cut_called hI ho hd, List.filter_filter]
      congr 1
      funext j
      rw [List.contains_cons]
      by_cases h : j = k
      · subst h; simp
      · have : (some j == some k) = false := by rw [beq_eq_false_iff_ne]; intro e; cases e; exact h rfl
        rw [this, Bool.false_or, show (j != k) = true from bne_iff_ne.mpr h, Bool.and_true]

/-- deleting a list of different handles -/
theorem dels {s : State} (hI : Core s) (l : List (Option Nat)) (hl : ∀ k, some k ∈ l → ∃ o, s.objs k = some o ∧ o.deleted = false) (h1 : ∀ k, l.count (some k) ≤ 1) :
    Core (l.foldl State.del s) ∧ Frame s (l.foldl State.del s) ∧ (l.foldl State.del s).slots = s.slots ∧
      (∀ k, some k ∉ l → (l.foldl State.del s).objs k = s.objs k) ∧
      ∀ k o, some k ∈ l → s.objs k = some o → (l.foldl State.del s).objs k = some { o with deleted := true } := by
  induction l generalizing s with
  | nil => exact ⟨hI, .refl s, rfl, fun _ _ => rfl, fun k o h => by cases h⟩
  | cons x l ih =>
    rw [List.foldl_cons]
    have hc : ∀ k, l.count (some k) ≤ 1 := fun k => by
      have := h1 k; rw [List.count_cons] at this; omega
    cases x with
    | none =>
      obtain ⟨a, b, c, d, e⟩ := ih hI (fun k hk => hl k (List.mem_cons_of_mem _ hk)) hc
      refine ⟨a, b, c, fun k hk => d k fun h => hk (List.mem_cons_of_mem _ h), fun k o hk => e k o ?_⟩
      rcases List.mem_cons.mp hk with h | h
      · cases h
      · exact h
    | some k =>
      obtain ⟨o, ho, hd⟩ := hl k (List.mem_cons_self ..)
      have hnot : some k ∉ l := by
        intro h
        have := h1 k
        rw [List.count_cons_self] at this
        have := List.count_pos_iff.mpr h
        omega
      have e : s.del (some k) = s.setObj k { o with deleted := true } := use_live ho hd _
      rw [e]
      obtain ⟨a, b, c, d, f⟩ := ih (s := s.setObj k { o with deleted := true }) (del_core hI ho) (fun j hj => by
        obtain ⟨o', ho', hd'⟩ := hl j (List.mem_cons_of_mem _ hj)
        have : j ≠ k := by rintro rfl; exact hnot hj
        exact ⟨o', by show upd s.objs k _ j = _; rw [upd_ne _ _ this]; exact ho', hd'⟩) hc
      refine ⟨a, ⟨b.map, b.hubs, b.next, b.vars, b.groups, b.log, b.ub⟩, c, fun j hj => ?_, fun j o' hj ho' => ?_⟩
      · rw [d j fun h => hj (List.mem_cons_of_mem _ h)]
        have : j ≠ k := by rintro rfl; exact hj (List.mem_cons_self ..)
        show upd s.objs k _ j = _; rw [upd_ne _ _ this]
      · by_cases h : j = k
        · subst h
          rw [d j hnot]
          rw [ho] at ho'; cases ho'
          exact upd_same _ _ _
        · rcases List.mem_cons.mp hj with e | hj
          · cases e; exact absurd rfl h
          · exact f j o' hj (by show upd s.objs k _ j = _; rw [upd_ne _ _ h]; exact ho')

end Maf.Conn
