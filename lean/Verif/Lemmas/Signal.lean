import Verif.Spec.Signal
namespace Maf.Sig
variable {A : Type}

@[simp] theorem connections_append (l m : List (Ev A)) : connections (l ++ m) = m.foldl liveStep (connections l) := by
  simp [connections]
@[simp] theorem current_append (l m : List (Ev A)) : current (l ++ m) = m.foldl curStep (current l) := by
  simp [current]

/-- The connected entries of a list. -/
def liveOf (es : List Entry) : List (Nat × SlotId) := es.filterMap fun e => e.slot.map fun s => (e.ticket, s)

theorem liveOf_append (a b : List Entry) : liveOf (a ++ b) = liveOf a ++ liveOf b := by simp [liveOf]

theorem mem_liveOf {es : List Entry} {t : Nat} {s : SlotId} : (t, s) ∈ liveOf es ↔ ⟨t, some s⟩ ∈ es := by
  simp only [liveOf, List.mem_filterMap, Option.map_eq_some_iff, Prod.mk.injEq]
  constructor
  · rintro ⟨⟨t', sl⟩, he, s', hs, rfl, rfl⟩
    simp only at hs
    subst hs; exact he
  · intro h; exact ⟨_, h, s, rfl, rfl, rfl⟩

theorem has_iff {s : State A} {sl : SlotId} : has s sl = true ↔ ∃ t, ⟨t, some sl⟩ ∈ s.slots := by
  simp only [has, List.any_eq_true, beq_iff_eq]
  constructor
  · rintro ⟨⟨t, sl'⟩, he, h⟩; simp only at h; subst h; exact ⟨t, he⟩
  · rintro ⟨t, h⟩; exact ⟨_, h, rfl⟩

def tickets (es : List Entry) : List Nat := es.map Entry.ticket

theorem tickets_set (es : List Entry) (i : Nat) (e : Entry) (h : es[i]? = some e) (o : Option SlotId) :
    tickets (es.set i { e with slot := o }) = tickets es := by
  induction es generalizing i with
  | nil => simp at h
  | cons x es ih =>
    cases i with
    | zero => simp at h; subst h; simp [tickets]
    | succ i => simp at h; simp [tickets] at ih ⊢; exact ih i h

theorem take_tickets_set (es : List Entry) (i k : Nat) (e : Entry) (h : es[i]? = some e) (o : Option SlotId) :
    tickets ((es.set i { e with slot := o }).take k) = tickets (es.take k) := by
  have := congrArg (List.take k) (tickets_set es i e h o)
  simpa [tickets, List.map_take] using this

/-- Removing the entry with ticket `t`, physically or by making it null. -/
theorem liveOf_removed (es : List Entry) (i : Nat) (e : Entry) (h : es[i]? = some e)
    (hp : (tickets es).Pairwise (· < ·)) :
    liveOf (es.eraseIdx i) = (liveOf es).filter (fun p => p.1 != e.ticket) ∧
    liveOf (es.set i { e with slot := none }) = (liveOf es).filter (fun p => p.1 != e.ticket) := by
  have keep : ∀ (l : List Entry), (∀ x ∈ l, x.ticket ≠ e.ticket) →
      (liveOf l).filter (fun p => p.1 != e.ticket) = liveOf l := by
    intro l hl
    apply List.filter_eq_self.2
    rintro ⟨t, s⟩ hm
    have := hl _ (mem_liveOf.1 hm)
    simpa using this
  induction es generalizing i with
  | nil => simp at h
  | cons x es ih =>
    simp only [tickets, List.map_cons, List.pairwise_cons] at hp
    cases i with
    | zero =>
      simp at h; subst h
      have hk : ∀ y ∈ es, y.ticket ≠ x.ticket := by
        intro y hy
        have := hp.1 y.ticket (List.mem_map_of_mem hy)
        omega
      have hk' := keep es hk
      constructor
      · rw [List.eraseIdx_cons_zero]
        rw [show x :: es = [x] ++ es from rfl, liveOf_append, List.filter_append, hk']
        have : (liveOf [x]).filter (fun p => p.1 != x.ticket) = [] := by
          cases hx : x.slot <;> simp [liveOf, hx]
        rw [this]; rfl
      · rw [List.set_cons_zero]
        rw [show x :: es = [x] ++ es from rfl, liveOf_append, List.filter_append, hk']
        have : (liveOf [x]).filter (fun p => p.1 != x.ticket) = [] := by
          cases hx : x.slot <;> simp [liveOf, hx]
        rw [this]; rfl
    | succ i =>
      simp at h
      have hne : x.ticket ≠ e.ticket := by
        have := hp.1 e.ticket (List.mem_map_of_mem (List.mem_of_getElem? h))
        omega
      obtain ⟨h1, h2⟩ := ih i h hp.2
      have hx := keep [x] (by simpa using hne)
      constructor
      · rw [List.eraseIdx_cons_succ, show x :: es.eraseIdx i = [x] ++ es.eraseIdx i from rfl,
          show x :: es = [x] ++ es from rfl, liveOf_append, liveOf_append, List.filter_append, hx, h1]
      · rw [List.set_cons_succ, show x :: es.set i _ = [x] ++ es.set i _ from rfl,
          show x :: es = [x] ++ es from rfl, liveOf_append, liveOf_append, List.filter_append, hx, h2]

/-- Forgetting a null entry. -/
theorem liveOf_erase_none (es : List Entry) (i t : Nat) (h : es[i]? = some ⟨t, none⟩) :
    liveOf (es.eraseIdx i) = liveOf es := by
  induction es generalizing i with
  | nil => simp at h
  | cons x es ih =>
    cases i with
    | zero => simp at h; subst h; simp [liveOf]
    | succ i =>
      simp at h
      rw [List.eraseIdx_cons_succ, show x :: es.eraseIdx i = [x] ++ es.eraseIdx i from rfl,
          show x :: es = [x] ++ es from rfl, liveOf_append, liveOf_append, ih i h]

/-- `clear` removes all connections. -/
theorem connections_cleared (es : List Entry) (acc : List (Nat × SlotId)) (h : acc = liveOf es) :
    ((es.filterMap fun e => e.slot.map fun sl => (Ev.removed e.ticket sl : Ev A)).foldl liveStep acc) = [] := by
  have gen : ∀ (es : List Entry) (acc : List (Nat × SlotId)), (∀ p ∈ acc, p ∈ liveOf es) →
      ((es.filterMap fun e => e.slot.map fun sl => (Ev.removed e.ticket sl : Ev A)).foldl liveStep acc) = [] := by
    intro es
    induction es with
    | nil => intro acc h; cases acc with
      | nil => rfl
      | cons p _ => exact absurd (h p (by simp)) (by simp [liveOf])
    | cons x es ih =>
      intro acc h
      rcases x with ⟨t, o⟩
      cases o with
      | none => exact ih acc (fun p hp => by simpa [liveOf] using h p hp)
      | some sl =>
        simp only [List.filterMap_cons, Option.map_some, List.foldl_cons]
        refine ih _ ?_
        intro p hp
        simp only [liveStep, List.mem_filter, bne_iff_ne] at hp
        have := h p hp.1
        simp only [liveOf, List.filterMap_cons, Option.map_some, List.mem_cons] at this
        rcases this with rfl | h'
        · exact absurd rfl hp.2
        · exact h'
  exact gen es acc (by subst h; exact fun p hp => hp)

theorem events_snoc {log : List (Ev A)} {e : Ev A} (h : ∀ l e m, log = l ++ e :: m → EventOk l e)
    (he : EventOk log e) : ∀ l e' m, log ++ [e] = l ++ e' :: m → EventOk l e' := by
  intro l e' m hl
  rcases List.eq_nil_or_concat m with rfl | ⟨m', y, rfl⟩
  · have := List.append_inj' hl rfl
    obtain ⟨rfl, h2⟩ := this
    cases h2; exact he
  · rw [show l ++ e' :: (m'.concat y) = (l ++ e' :: m') ++ [y] by simp] at hl
    have := List.append_inj' hl rfl
    exact h l e' m' this.1

theorem slot_unique {sl : SlotId} (l : List (Nat × SlotId)) (hnd : (l.map Prod.snd).Nodup) (a b : Nat)
    (ha : (a, sl) ∈ l) (hb : (b, sl) ∈ l) : a = b := by
  induction l with
  | nil => cases ha
  | cons x l ih =>
    simp only [List.map_cons, List.nodup_cons, List.mem_map, not_exists, not_and] at hnd
    rcases List.mem_cons.1 ha with rfl | ha'
    · rcases List.mem_cons.1 hb with hb' | hb'
      · exact (congrArg Prod.fst hb').symm
      · exact (hnd.1 _ hb' rfl).elim
    · rcases List.mem_cons.1 hb with rfl | hb'
      · exact (hnd.1 _ ha' rfl).elim
      · exact ih hnd.2 ha' hb'

theorem events_cleared (es : List Entry) (log : List (Ev A)) (hc : connections log = liveOf es)
    (hp : (tickets es).Pairwise (· < ·)) (hu : ((liveOf es).map Prod.snd).Nodup)
    (h : ∀ l e m, log = l ++ e :: m → EventOk l e) :
    ∀ l e' m, (log ++ es.filterMap fun e => e.slot.map fun sl => (Ev.removed e.ticket sl : Ev A)) = l ++ e' :: m →
      EventOk l e' := by
  induction es generalizing log with
  | nil => simpa using h
  | cons x es ih =>
    have hp' := hp
    simp only [tickets, List.map_cons, List.pairwise_cons] at hp'
    rcases x with ⟨t, o⟩
    cases o with
    | none => exact ih log hc hp'.2 hu h
    | some sl =>
      have hl : liveOf (⟨t, some sl⟩ :: es) = (t, sl) :: liveOf es := rfl
      rw [hl] at hc hu
      have hm : (t, sl) ∈ connections log := by rw [hc]; simp
      have step := ih (log ++ [.removed t sl]) ?_ hp'.2 ?_ (events_snoc h ?_)
      · simpa using step
      · rw [connections_append]
        simp only [List.foldl_cons, List.foldl_nil, liveStep, hc]
        rw [List.filter_cons_of_neg (by simp)]
        apply List.filter_eq_self.2
        rintro ⟨t', s'⟩ hm'
        have : t < t' := hp'.1 t' (List.mem_map.2 ⟨_, mem_liveOf.1 hm', rfl⟩)
        simp only [bne_iff_ne]; omega
      · simp only [List.map_cons, List.nodup_cons] at hu; exact hu.2
      · refine ⟨hm, fun t' ht' => ?_⟩
        rw [hc] at ht'
        exact slot_unique _ hu _ _ ht' (by simp)

theorem current_cleared (es : List Entry) (acc : Option (A × List (Nat × A))) :
    ((es.filterMap fun e => e.slot.map fun sl => (Ev.removed e.ticket sl : Ev A)).foldl curStep acc) = acc := by
  induction es with
  | nil => rfl
  | cons x es ih =>
    rcases x with ⟨t, o⟩
    cases o with
    | none => exact ih
    | some sl => simpa [curStep] using ih

/-! ### The invariant -/

/-- How many entries the emission in progress has called. -/
def Emission.count (e : Emission A) : Nat := if e.running.isSome then e.idx + 1 else e.idx

structure Inv (s : State A) : Prop where
  /-- list order is connection order -/
  sorted : (tickets s.slots).Pairwise (· < ·)
  bound : ∀ t ∈ tickets s.slots, t < s.next
  /-- the list holds exactly the connections -/
  conns : connections s.log = liveOf s.slots
  /-- the emission in progress has called exactly the entries before its iterator -/
  cur : current s.log = s.emission.map fun e =>
    (e.arg, (tickets (s.slots.take e.count)).map fun t => (t, e.arg))
  pos : ∀ e, s.emission = some e → e.count ≤ s.slots.length
  /-- slots are connected at most once -/
  uniq : ((liveOf s.slots).map Prod.snd).Nodup
  fresh : ∀ p ∈ liveOf s.slots, p.2 < s.nextSlot
  handles : ∀ (h : Nat) sl, s.handles[h]? = some (Handle.weak sl) ∨ s.handles[h]? = some (Handle.shared sl) → sl < s.nextSlot
  /-- a handle which holds the slot has disconnected it, and it is the only one -/
  shared : ∀ (h : Nat) sl, s.handles[h]? = some (Handle.shared sl) → has s sl = false ∧
    ∀ h' : Nat, s.handles[h']? = some (Handle.shared sl) → h' = h
  events : ∀ l e m, s.log = l ++ e :: m → EventOk l e
  runs : ∀ e, s.emission = some e → ∀ r, e.running = some r → ∃ t sl, r = ⟨t, some sl⟩

/-- The parts of `Inv` that do not depend on the handles. -/
structure Core (slots : List Entry) (next nextSlot : Nat) (em : Option (Emission A)) (log : List (Ev A)) : Prop where
  sorted : (tickets slots).Pairwise (· < ·)
  bound : ∀ t ∈ tickets slots, t < next
  conns : connections log = liveOf slots
  cur : current log = em.map fun e => (e.arg, (tickets (slots.take e.count)).map fun t => (t, e.arg))
  pos : ∀ e, em = some e → e.count ≤ slots.length
  uniq : ((liveOf slots).map Prod.snd).Nodup
  fresh : ∀ p ∈ liveOf slots, p.2 < nextSlot
  events : ∀ l e m, log = l ++ e :: m → EventOk l e
  runs : ∀ e, em = some e → ∀ r, e.running = some r → ∃ t sl, r = ⟨t, some sl⟩

theorem Inv.core {s : State A} (h : Inv s) : Core s.slots s.next s.nextSlot s.emission s.log :=
  ⟨h.sorted, h.bound, h.conns, h.cur, h.pos, h.uniq, h.fresh, h.events, h.runs⟩

theorem inv_init : Inv (init A) := by
  refine ⟨by simp [init, tickets], by simp [init, tickets], rfl, rfl, by simp [init], by simp [init, liveOf],
    by simp [init, liveOf], by simp [init], by simp [init], by simp [init], by simp [init]⟩

theorem ticket_unique (l : List Entry) (hpw : (tickets l).Pairwise (· < ·)) (x y : Entry) (hx : x ∈ l) (hy : y ∈ l)
    (hxy : x.ticket = y.ticket) : x = y := by
  induction l with
  | nil => cases hx
  | cons z l ih =>
    simp only [tickets, List.map_cons, List.pairwise_cons] at hpw
    rcases List.mem_cons.1 hx with rfl | hx'
    · rcases List.mem_cons.1 hy with rfl | hy'
      · rfl
      · have := hpw.1 y.ticket (List.mem_map_of_mem hy'); omega
    · rcases List.mem_cons.1 hy with rfl | hy'
      · have := hpw.1 x.ticket (List.mem_map_of_mem hx'); omega
      · exact ih hpw.2 hx' hy'

theorem core_add {s : State A} (h : Core s.slots s.next s.nextSlot s.emission s.log) (sl n : Nat)
    (hn : s.nextSlot ≤ n) (hsl : sl < n) (hnew : ∀ p ∈ liveOf s.slots, p.2 ≠ sl) :
    Core (add s sl).slots (add s sl).next n (add s sl).emission (add s sl).log := by
  have hl : liveOf (s.slots ++ [Entry.mk s.next (some sl)]) = liveOf s.slots ++ [(s.next, sl)] := by
    rw [liveOf_append]; rfl
  refine ⟨?_, ?_, ?_, ?_, ?_, ?_, ?_, ?_, h.runs⟩
  · show (tickets (s.slots ++ [Entry.mk s.next (some sl)])).Pairwise (· < ·)
    rw [tickets, List.map_append, List.pairwise_append]
    refine ⟨h.sorted, by simp, ?_⟩
    intro a ha b hb
    simp at hb; subst hb
    exact h.bound a ha
  · intro t ht
    show t < s.next + 1
    replace ht : t ∈ tickets (s.slots ++ [Entry.mk s.next (some sl)]) := ht
    rw [tickets, List.map_append, List.mem_append] at ht
    rcases ht with ht | ht
    · have := h.bound t ht; omega
    · simp at ht; omega
  · show connections (s.log ++ [.added s.next sl]) = liveOf (s.slots ++ [Entry.mk s.next (some sl)])
    rw [hl, connections_append, h.conns]; rfl
  · show current (s.log ++ [.added s.next sl]) = s.emission.map fun e =>
      (e.arg, (tickets ((s.slots ++ [Entry.mk s.next (some sl)]).take e.count)).map fun t => (t, e.arg))
    rw [current_append]
    simp only [List.foldl_cons, List.foldl_nil, curStep]
    rw [h.cur]
    cases he : s.emission with
    | none => rfl
    | some e =>
      simp only [Option.map_some]
      rw [List.take_append_of_le_length (h.pos e he)]
  · intro e he
    have := h.pos e he
    show e.count ≤ (s.slots ++ [Entry.mk s.next (some sl)]).length
    simp; omega
  · show ((liveOf (s.slots ++ [Entry.mk s.next (some sl)])).map Prod.snd).Nodup
    rw [hl, List.map_append, List.nodup_append]
    refine ⟨h.uniq, by simp, ?_⟩
    intro a ha b hb
    simp at hb; subst hb
    simp only [List.mem_map] at ha
    obtain ⟨p, hp, rfl⟩ := ha
    exact hnew p hp
  · intro p hp
    replace hp : p ∈ liveOf (s.slots ++ [Entry.mk s.next (some sl)]) := hp
    rw [hl, List.mem_append] at hp
    rcases hp with hp | hp
    · exact Nat.lt_of_lt_of_le (h.fresh p hp) hn
    · simp at hp; subst hp; exact hsl
  · refine events_snoc h.events ?_
    intro t' s' hm
    rw [h.conns] at hm
    exact ⟨h.bound t' (List.mem_map.2 ⟨_, mem_liveOf.1 hm, rfl⟩), hnew _ hm⟩

/-- What `remove` does when it finds the slot. -/
theorem remove_spec {s : State A} (h : Core s.slots s.next s.nextSlot s.emission s.log) (sl : SlotId) :
    ((remove s sl).2 = false ∧ (remove s sl).1 = s ∧ has s sl = false) ∨
    ((remove s sl).2 = true ∧ has s sl = true ∧ has (remove s sl).1 sl = false ∧
      (∃ t, (t, sl) ∈ liveOf s.slots ∧ (remove s sl).1.log = s.log ++ [.removed t sl]) ∧
      (∀ sl', sl' ≠ sl → has (remove s sl).1 sl' = has s sl') ∧
      (remove s sl).1.handles = s.handles ∧ (remove s sl).1.nextSlot = s.nextSlot ∧
      (remove s sl).1.aware = s.aware ∧ (remove s sl).1.kept = s.kept ∧
      (remove s sl).1.alive = s.alive ∧ (remove s sl).1.ub = s.ub ∧ (remove s sl).1.next = s.next ∧
      (remove s sl).1.emission = s.emission ∧
      Core (remove s sl).1.slots (remove s sl).1.next (remove s sl).1.nextSlot (remove s sl).1.emission (remove s sl).1.log) := by
  cases hf : find s sl with
  | none =>
    left
    rw [show remove s sl = (s, false) by simp [remove, hf]]
    refine ⟨rfl, rfl, ?_⟩
    simp only [find, List.findIdx?_eq_none_iff] at hf
    simp only [has, List.any_eq_false]
    intro e he; simpa using hf e he
  | some i =>
    have hf' := hf
    simp only [find, List.findIdx?_eq_some_iff_getElem] at hf'
    replace hf' := hf'
    obtain ⟨hi, hp, _⟩ := hf'
    have hget : s.slots[i]? = some s.slots[i] := List.getElem?_eq_getElem hi
    generalize hee : s.slots[i] = e at hget hp
    have hp : e.slot = some sl := by simpa using hp
    have hel : (e.ticket, sl) ∈ liveOf s.slots := by
      rw [mem_liveOf, ← hp]; exact List.mem_of_getElem? hget
    have hhas : has s sl = true := has_iff.2 ⟨_, mem_liveOf.1 hel⟩
    obtain ⟨l1, l2⟩ := liveOf_removed s.slots i e hget h.sorted
    have hnot : ∀ t, (t, sl) ∉ (liveOf s.slots).filter (fun p => p.1 != e.ticket) := by
      intro t hm
      simp only [List.mem_filter, bne_iff_ne] at hm
      exact hm.2 (slot_unique _ h.uniq _ _ hm.1 hel)
    have core : ∀ slots', liveOf slots' = (liveOf s.slots).filter (fun p => p.1 != e.ticket) →
        (tickets slots').Sublist (tickets s.slots) →
        (∀ em, s.emission = some em → em.count ≤ slots'.length ∧
          tickets (slots'.take em.count) = tickets (s.slots.take em.count)) →
        Core slots' s.next s.nextSlot s.emission (s.log ++ [.removed e.ticket sl]) := by
      intro slots' hl hsub hem
      refine ⟨List.Pairwise.sublist hsub h.sorted, fun t ht => h.bound t (hsub.subset ht), ?_, ?_,
        fun em he => (hem em he).1, ?_, ?_, events_snoc h.events ?_, h.runs⟩
      · rw [connections_append, h.conns, hl]; rfl
      · rw [current_append]
        simp only [List.foldl_cons, List.foldl_nil, curStep]
        rw [h.cur]
        cases he : s.emission with
        | none => rfl
        | some em => simp only [Option.map_some, (hem em he).2]
      · rw [hl]; exact h.uniq.sublist (List.Sublist.map _ List.filter_sublist)
      · intro p hp; rw [hl] at hp; exact h.fresh p (List.mem_filter.1 hp).1
      · show (e.ticket, sl) ∈ connections s.log ∧ _
        rw [h.conns]; exact ⟨hel, fun t' ht' => slot_unique _ h.uniq _ _ ht' hel⟩
    have others : ∀ (s' : State A), liveOf s'.slots = (liveOf s.slots).filter (fun p => p.1 != e.ticket) →
        (has s' sl = false ∧ ∀ sl', sl' ≠ sl → has s' sl' = has s sl') := by
      intro s' hl
      constructor
      · cases hh : has s' sl with
        | false => rfl
        | true =>
          obtain ⟨t, ht⟩ := has_iff.1 hh
          rw [← mem_liveOf, hl] at ht
          exact absurd ht (hnot t)
      · intro sl' hne
        rw [Bool.eq_iff_iff, has_iff, has_iff]
        constructor
        · rintro ⟨t, ht⟩
          rw [← mem_liveOf, hl] at ht
          exact ⟨t, mem_liveOf.1 (List.mem_filter.1 ht).1⟩
        · rintro ⟨t, ht⟩
          refine ⟨t, ?_⟩
          rw [← mem_liveOf, hl, List.mem_filter]
          refine ⟨mem_liveOf.2 ht, ?_⟩
          simp only [bne_iff_ne]
          intro hte
          have hmem : e ∈ s.slots := List.mem_of_getElem? hget
          have := ticket_unique _ h.sorted _ _ ht hmem hte
          rw [← this] at hp
          simp only [Option.some.injEq] at hp
          exact hne hp
    right
    cases hem : s.emission with
    | none =>
      rw [show remove s sl = ({ s with slots := s.slots.eraseIdx i, log := s.log ++ [.removed e.ticket sl] }, true) by
        simp [remove, hf, hget, hem]]
      refine ⟨rfl, hhas, (others _ l1).1, ⟨_, hel, rfl⟩, (others _ l1).2, rfl, rfl, rfl, rfl, rfl, rfl, rfl, hem, ?_⟩
      exact core _ l1 (List.Sublist.map _ (List.eraseIdx_sublist _ _)) (by simp [hem])
    | some em =>
      have hr : remove s sl =
          (State.mk (s.slots.set i ⟨e.ticket, none⟩) s.next s.nextSlot s.emission s.handles s.aware s.kept s.alive
            s.ub (s.log ++ [Ev.removed e.ticket sl]), true) := by
        simp [remove, hf, hget, hem]
      rw [hr]
      refine ⟨rfl, hhas, (others _ l2).1, ⟨_, hel, rfl⟩, (others _ l2).2, rfl, rfl, rfl, rfl, rfl, rfl, rfl, hem, ?_⟩
      refine core _ l2 ?_ ?_
      · rw [tickets_set _ _ _ hget]; exact List.Sublist.refl _
      · intro em' he'
        exact ⟨by simpa using h.pos em' he', take_tickets_set _ _ _ _ hget _⟩

theorem mkInv {s : State A} (c : Core s.slots s.next s.nextSlot s.emission s.log)
    (hh : ∀ (h : Nat) sl, s.handles[h]? = some (Handle.weak sl) ∨ s.handles[h]? = some (Handle.shared sl) → sl < s.nextSlot)
    (hs : ∀ (h : Nat) sl, s.handles[h]? = some (Handle.shared sl) → has s sl = false ∧
      ∀ h' : Nat, s.handles[h']? = some (Handle.shared sl) → h' = h) : Inv s :=
  ⟨c.sorted, c.bound, c.conns, c.cur, c.pos, c.uniq, c.fresh, hh, hs, c.events, c.runs⟩

theorem has_add (s : State A) (sl sl' : SlotId) : has (add s sl) sl' = (has s sl' || sl == sl') := by
  simp [has, add]

theorem has_congr {s s' : State A} (h : s'.slots = s.slots) (sl : SlotId) : has s' sl = has s sl := by
  simp [has, h]

theorem getElem?_set_cases {l : List Handle} {h h' : Nat} {v w : Handle} (hh : (l.set h v)[h']? = some w) :
    (h' = h ∧ w = v) ∨ (h' ≠ h ∧ l[h']? = some w) := by
  by_cases e : h' = h
  · subst e
    rw [List.getElem?_set_self'] at hh
    cases hl : l[h']? with
    | none => simp [hl] at hh
    | some x => simp [hl] at hh; exact .inl ⟨rfl, hh.symm⟩
  · rw [List.getElem?_set_ne (Ne.symm e)] at hh
    exact .inr ⟨e, hh⟩

theorem inv_disconnect {s : State A} (h : Inv s) (n : Nat) : Inv (disconnect s n).1 := by
  unfold disconnect
  split
  · next sl hsl =>
    split
    · rcases remove_spec h.core sl with ⟨h1, h2, h3⟩ | ⟨h1, h2, h3, _, h5, h6, h7, h8, h9, h10, h11, h12, h13, hc⟩
      · have : remove s sl = (s, false) := by rw [← h1]; conv => rhs; arg 1; rw [← h2]
        rw [this]; exact h
      · have : remove s sl = ((remove s sl).1, true) := by rw [← h1]
        rw [this]
        show Inv { (remove s sl).1 with handles := (remove s sl).1.handles.set n (.shared sl) }
        refine mkInv hc ?_ ?_
        · intro h' sl' hh
          show sl' < (remove s sl).1.nextSlot
          rw [h7]
          replace hh : ((remove s sl).1.handles.set n (.shared sl))[h']? = some (Handle.weak sl') ∨
            ((remove s sl).1.handles.set n (.shared sl))[h']? = some (Handle.shared sl') := hh
          rw [h6] at hh
          rcases hh with hh | hh
          · rcases getElem?_set_cases hh with ⟨_, e⟩ | ⟨_, e⟩
            · cases e
            · exact h.handles _ _ (.inl e)
          · rcases getElem?_set_cases hh with ⟨_, e⟩ | ⟨_, e⟩
            · cases e; exact h.handles _ _ (.inl hsl)
            · exact h.handles _ _ (.inr e)
        · intro h' sl' hh
          replace hh : ((remove s sl).1.handles.set n (.shared sl))[h']? = some (Handle.shared sl') := hh
          rw [h6] at hh
          have hold : ∀ (g : Nat), s.handles[g]? ≠ some (Handle.shared sl) := by
            intro g hg
            have := (h.shared g sl hg).1
            rw [h2] at this; cases this
          rcases getElem?_set_cases hh with ⟨e1, e⟩ | ⟨hne, e⟩
          · cases e
            refine ⟨(has_congr rfl sl).trans h3, ?_⟩
            intro g hg
            replace hg : ((remove s sl).1.handles.set n (.shared sl))[g]? = some (Handle.shared sl) := hg
            rw [h6] at hg
            rcases getElem?_set_cases hg with ⟨e2, _⟩ | ⟨_, e2⟩
            · rw [e1, e2]
            · exact absurd e2 (hold g)
          · have hsl' : sl' ≠ sl := fun e' => hold h' (e' ▸ e)
            refine ⟨(has_congr rfl sl').trans ((h5 sl' hsl').trans (h.shared h' sl' e).1), ?_⟩
            intro g hg
            replace hg : ((remove s sl).1.handles.set n (.shared sl))[g]? = some (Handle.shared sl') := hg
            rw [h6] at hg
            rcases getElem?_set_cases hg with ⟨_, e2⟩ | ⟨_, e2⟩
            · cases e2; exact absurd rfl hsl'
            · exact (h.shared h' sl' e).2 g e2
    · refine mkInv h.core ?_ ?_
      · intro h' sl' hh
        rcases hh with hh | hh
        · rcases getElem?_set_cases hh with ⟨_, e⟩ | ⟨_, e⟩
          · cases e
          · exact h.handles _ _ (.inl e)
        · rcases getElem?_set_cases hh with ⟨_, e⟩ | ⟨_, e⟩
          · cases e
          · exact h.handles _ _ (.inr e)
      · intro h' sl' hh
        rcases getElem?_set_cases hh with ⟨_, e⟩ | ⟨_, e⟩
        · cases e
        · refine ⟨(has_congr rfl sl').trans (h.shared h' sl' e).1, ?_⟩
          intro g hg
          rcases getElem?_set_cases hg with ⟨_, e2⟩ | ⟨_, e2⟩
          · cases e2
          · exact (h.shared h' sl' e).2 g e2
  · exact h

theorem reconnect_shared {s : State A} (h : Inv s) {n : Nat} {sl : SlotId}
    (hsl : s.handles[n]? = some (Handle.shared sl)) (ha : s.alive = true) :
    reconnect s n = ({ add s sl with handles := s.handles.set n (.weak sl) }, true) := by
  have := (h.shared n sl hsl).1
  simp [reconnect, hsl, ha, addUnique, this, add]

theorem hnew_of_has {s : State A} {sl : SlotId} (h : has s sl = false) : ∀ p ∈ liveOf s.slots, p.2 ≠ sl := by
  rintro ⟨t, sl'⟩ hp e
  simp only at e; subst e
  have := has_iff.2 ⟨t, mem_liveOf.1 hp⟩
  rw [h] at this; cases this

theorem inv_reconnect {s : State A} (h : Inv s) (n : Nat) : Inv (reconnect s n).1 := by
  cases hn : s.handles[n]? with
  | none => simpa [reconnect, hn] using h
  | some x =>
    cases x with
    | weak sl => simpa [reconnect, hn] using h
    | empty => simpa [reconnect, hn] using h
    | shared sl =>
      cases ha : s.alive with
      | false => simpa [reconnect, hn, ha] using h
      | true =>
        rw [reconnect_shared h hn ha]
        have hno := (h.shared n sl hn).1
        refine mkInv (core_add h.core sl s.nextSlot (Nat.le_refl _) (h.handles n sl (.inr hn)) (hnew_of_has hno)) ?_ ?_
        · intro h' sl' hh
          rcases hh with hh | hh
          · rcases getElem?_set_cases hh with ⟨_, e⟩ | ⟨_, e⟩
            · cases e; exact h.handles n sl (.inr hn)
            · exact h.handles _ _ (.inl e)
          · rcases getElem?_set_cases hh with ⟨_, e⟩ | ⟨_, e⟩
            · cases e
            · exact h.handles _ _ (.inr e)
        · intro h' sl' hh
          rcases getElem?_set_cases hh with ⟨_, e⟩ | ⟨hne, e⟩
          · cases e
          · have hsl' : sl ≠ sl' := by
              intro e'; subst e'
              exact hne ((h.shared n sl hn).2 h' e)
            refine ⟨?_, ?_⟩
            · refine (has_congr (s := add s sl) rfl sl').trans ?_
              rw [has_add, (h.shared h' sl' e).1]
              simp [hsl']
            · intro g hg
              rcases getElem?_set_cases hg with ⟨_, e2⟩ | ⟨_, e2⟩
              · cases e2
              · exact (h.shared h' sl' e).2 g e2

theorem inv_connect {s : State A} (h : Inv s) (s' : State A) (hx : List Handle)
    (h1 : s'.slots = (add s s.nextSlot).slots) (h2 : s'.next = (add s s.nextSlot).next)
    (h3 : s'.nextSlot = s.nextSlot + 1) (h4 : s'.emission = s.emission) (h5 : s'.log = (add s s.nextSlot).log)
    (h6 : s'.handles = s.handles ++ hx) (hxs : ∀ x ∈ hx, x = .weak s.nextSlot) : Inv s' := by
  have hno : has s s.nextSlot = false := by
    cases hh : has s s.nextSlot with
    | false => rfl
    | true =>
      obtain ⟨t, ht⟩ := has_iff.1 hh
      have := h.fresh _ (mem_liveOf.2 ht)
      exact absurd this (Nat.lt_irrefl _)
  have hc := core_add h.core s.nextSlot (s.nextSlot + 1) (Nat.le_succ _) (Nat.lt_succ_self _) (hnew_of_has hno)
  have hold : ∀ (g : Nat) (w : Handle), s'.handles[g]? = some w → s.handles[g]? = some w ∨ w = .weak s.nextSlot := by
    intro g w hg
    rw [h6] at hg
    by_cases hl : g < s.handles.length
    · rw [List.getElem?_append_left hl] at hg; exact .inl hg
    · rw [List.getElem?_append_right (by omega)] at hg
      exact .inr (hxs w (List.mem_of_getElem? hg))
  refine mkInv (by rw [h1, h2, h3, h4, h5]; exact hc) ?_ ?_
  · intro g sl hg
    rw [h3]
    have : ∀ w, s'.handles[g]? = some w → (w = .weak sl ∨ w = .shared sl) → sl < s.nextSlot + 1 := by
      intro w hw hww
      rcases hold g w hw with e | e
      · have := h.handles g sl (by rcases hww with rfl | rfl <;> simp [e])
        exact Nat.lt_succ_of_lt this
      · subst e
        rcases hww with e | e
        · cases e; exact Nat.lt_succ_self _
        · cases e
    rcases hg with hg | hg
    · exact this _ hg (.inl rfl)
    · exact this _ hg (.inr rfl)
  · intro g sl hg
    rcases hold g _ hg with e | e
    · refine ⟨?_, ?_⟩
      · rw [has_congr (s := add s s.nextSlot) h1, has_add, (h.shared g sl e).1]
        have := h.handles g sl (.inr e)
        simp; exact fun e' => by rw [e'] at this; exact Nat.lt_irrefl _ this
      · intro g' hg'
        rcases hold g' _ hg' with e' | e'
        · exact (h.shared g sl e).2 g' e'
        · cases e'
    · cases e

theorem inv_setEmpty {s : State A} (h : Inv s) (n : Nat) (b : Bool) :
    Inv { s with handles := s.handles.set n .empty, ub := b } := by
    refine mkInv h.core ?_ ?_
    · intro h' sl' hh
      rcases hh with hh | hh
      · rcases getElem?_set_cases hh with ⟨_, e⟩ | ⟨_, e⟩
        · cases e
        · exact h.handles _ _ (.inl e)
      · rcases getElem?_set_cases hh with ⟨_, e⟩ | ⟨_, e⟩
        · cases e
        · exact h.handles _ _ (.inr e)
    · intro h' sl' hh
      rcases getElem?_set_cases hh with ⟨_, e⟩ | ⟨_, e⟩
      · cases e
      · refine ⟨(has_congr rfl sl').trans (h.shared h' sl' e).1, ?_⟩
        intro g hg
        rcases getElem?_set_cases hg with ⟨_, e2⟩ | ⟨_, e2⟩
        · cases e2
        · exact (h.shared h' sl' e).2 g e2

theorem inv_dropHandle {s : State A} (h : Inv s) (n : Nat) : Inv (dropHandle s n) := by
  unfold dropHandle
  split
  · exact inv_setEmpty h _ _
  · exact inv_setEmpty h _ _

theorem inv_awareReturn {s : State A} (h : Inv s) (sl : SlotId) : Inv (awareReturn s sl) := by
  unfold awareReturn
  split
  · exact h
  · split
    · split
      · exact inv_setEmpty h _ _
      · exact mkInv h.core h.handles h.shared
    · exact h

theorem awareReturn_same (s : State A) (sl : SlotId) :
    (awareReturn s sl).slots = s.slots ∧ (awareReturn s sl).log = s.log ∧ (awareReturn s sl).next = s.next ∧
      (awareReturn s sl).nextSlot = s.nextSlot ∧ (awareReturn s sl).alive = s.alive := by
  unfold awareReturn
  split
  · exact ⟨rfl, rfl, rfl, rfl, rfl⟩
  · split
    · split <;> exact ⟨rfl, rfl, rfl, rfl, rfl⟩
    · exact ⟨rfl, rfl, rfl, rfl, rfl⟩

theorem inv_cleared {s : State A} (h : Inv s) (he : s.emission = none) (b : Bool) :
    Inv { s with
      slots := [], alive := b
      log := s.log ++ s.slots.filterMap fun e => e.slot.map fun sl => Ev.removed e.ticket sl } := by
  refine mkInv ⟨by simp [tickets], by simp [tickets], ?_, ?_, by simp [he], by simp [liveOf], by simp [liveOf], ?_,
    h.runs⟩ h.handles ?_
  · rw [connections_append, connections_cleared _ _ h.conns]; rfl
  · rw [current_append, current_cleared, h.cur, he]; rfl
  · exact events_cleared s.slots s.log h.conns h.sorted h.uniq h.events
  · intro h' sl hh
    exact ⟨by simp [has], (h.shared h' sl hh).2⟩

theorem inv_step {s s' : State A} {a : Act A} (h : Inv s) (hs : step s a = some s') : Inv s' := by
  simp only [step] at hs
  split at hs
  · cases hs
  cases a <;> simp only [body] at hs
  case connect =>
    split at hs
    · cases hs
      exact inv_connect h _ [.weak s.nextSlot] rfl rfl rfl rfl rfl rfl (by simp)
    · cases hs
  case connectAware =>
    split at hs
    · cases hs
      exact inv_connect h _ [.weak s.nextSlot, .weak s.nextSlot] rfl rfl rfl rfl rfl rfl (by simp)
    · cases hs
  case keep =>
    split at hs
    · cases hs; exact mkInv h.core h.handles h.shared
    · cases hs
  case disconnect n =>
    split at hs
    · cases hs; exact inv_disconnect h n
    · cases hs
  case reconnect n =>
    split at hs
    · cases hs; exact inv_reconnect h n
    · cases hs
  case drop n =>
    split at hs
    · cases hs; exact inv_dropHandle h n
    · cases hs
  case scopeEnd n =>
    split at hs
    · cases hs
      refine inv_dropHandle ?_ n
      split
      · exact inv_disconnect h n
      · exact h
    · cases hs
  case clear =>
    split at hs
    · split at hs
      · cases hs; exact mkInv h.core h.handles h.shared
      · next he => cases hs; exact inv_cleared h (by simpa using he) s.alive
    · cases hs
  case destroy =>
    split at hs
    · split at hs
      · cases hs; exact mkInv h.core h.handles h.shared
      · next he => cases hs; exact inv_cleared h (by simpa using he) false
    · cases hs
  case emit a =>
    split at hs
    · split at hs
      · cases hs; exact h
      · split at hs
        · cases hs; exact mkInv h.core h.handles h.shared
        · next he =>
          cases hs
          refine mkInv ⟨h.sorted, h.bound, ?_, ?_, ?_, h.uniq, h.fresh, events_snoc h.events ?_, ?_⟩
            h.handles h.shared
          · rw [connections_append, h.conns]; rfl
          · rw [current_append]; simp [curStep, Emission.count, tickets]
          · intro e hee; simp at hee; subst hee; simp [Emission.count]
          · show current s.log = none
            have he' : s.emission = none := by simpa using he
            rw [h.cur, he']; rfl
          · intro e hee r hr; simp at hee; subst hee; simp at hr
    · cases hs
  case iter =>
    split at hs
    · next a i hem =>
      have hpos : i ≤ s.slots.length := by simpa [Emission.count] using h.pos _ hem
      have hcur : current s.log = some (a, (tickets (s.slots.take i)).map fun t => (t, a)) := by
        rw [h.cur, hem]; simp [Emission.count]
      split at hs
      · next hnone =>
        cases hs
        have hi : s.slots.length ≤ i := List.getElem?_eq_none_iff.1 hnone
        rw [List.take_of_length_le hi] at hcur
        refine mkInv ⟨h.sorted, h.bound, ?_, ?_, by simp, h.uniq, h.fresh, events_snoc h.events ?_, by simp⟩
          h.handles h.shared
        · rw [connections_append, h.conns]; rfl
        · rw [current_append]; rfl
        · refine ⟨a, _, hcur, ?_, ?_, ?_⟩
          · rw [List.map_map]
            have : (Prod.fst ∘ fun t : Nat => (t, a)) = id := rfl
            rw [this, List.map_id]; exact h.sorted
          · intro c hc
            simp only [List.mem_map] at hc
            obtain ⟨_, _, rfl⟩ := hc; rfl
          · intro t sl hm
            rw [h.conns, mem_liveOf] at hm
            exact List.mem_map.2 ⟨t, List.mem_map.2 ⟨_, hm, rfl⟩, rfl⟩
      · next t hget =>
        cases hs
        have htake : (s.slots.eraseIdx i).take i = s.slots.take i := by
          rw [List.eraseIdx_eq_take_drop_succ, List.take_append_of_le_length (by simp; omega), List.take_take]; simp
        have hlt := (List.getElem?_eq_some_iff.1 hget).1
        refine mkInv ⟨?_, ?_, ?_, ?_, ?_, ?_, ?_, h.events, h.runs⟩ h.handles ?_
        · exact List.Pairwise.sublist (List.Sublist.map _ (List.eraseIdx_sublist _ _)) h.sorted
        · intro t' ht'
          exact h.bound t' ((List.Sublist.map _ (List.eraseIdx_sublist _ _)).subset ht')
        · rw [h.conns]; exact (liveOf_erase_none _ _ _ hget).symm
        · show current s.log = s.emission.map fun e =>
            (e.arg, (tickets ((s.slots.eraseIdx i).take e.count)).map fun t => (t, e.arg))
          rw [hcur, hem]
          simp only [Option.map_some, Emission.count, Option.isSome_none, Bool.false_eq_true, if_false, htake]
        · intro e hee
          replace hee : s.emission = some e := hee
          rw [hem] at hee; cases hee
          show (Emission.mk a i none).count ≤ (s.slots.eraseIdx i).length
          rw [List.length_eraseIdx, if_pos hlt]
          simp [Emission.count]; omega
        · show ((liveOf (s.slots.eraseIdx i)).map Prod.snd).Nodup
          rw [liveOf_erase_none _ _ _ hget]; exact h.uniq
        · intro p hp
          replace hp : p ∈ liveOf (s.slots.eraseIdx i) := hp
          rw [liveOf_erase_none _ _ _ hget] at hp; exact h.fresh p hp
        · intro h' sl hh
          refine ⟨?_, (h.shared h' sl hh).2⟩
          have := (h.shared h' sl hh).1
          cases hx : has { s with slots := s.slots.eraseIdx i } sl with
          | false => rfl
          | true =>
            obtain ⟨t', ht'⟩ := has_iff.1 hx
            replace ht' : Entry.mk t' (some sl) ∈ s.slots.eraseIdx i := ht'
            have h2 := has_iff.2 ⟨t', (List.eraseIdx_sublist _ _).subset ht'⟩
            rw [this] at h2; cases h2
      · next t sl hget =>
        cases hs
        have hlt := (List.getElem?_eq_some_iff.1 hget).1
        refine mkInv ⟨h.sorted, h.bound, ?_, ?_, ?_, h.uniq, h.fresh, events_snoc h.events ?_, ?_⟩
          h.handles h.shared
        · rw [connections_append, h.conns]; rfl
        · rw [current_append]
          simp only [List.foldl_cons, List.foldl_nil, curStep]
          rw [hcur]
          simp only [Option.map_some, Emission.count, Option.isSome_some, if_true]
          rw [List.take_add_one, hget]
          simp [tickets]
        · intro e hee
          simp at hee; subst hee
          simp [Emission.count]; omega
        · refine ⟨?_, ?_, _, hcur, ?_⟩
          · rw [h.conns, mem_liveOf]; exact List.mem_of_getElem? hget
          · intro s' hs'
            rw [h.conns, mem_liveOf] at hs'
            have := ticket_unique _ h.sorted _ _ hs' (List.mem_of_getElem? hget) rfl
            simpa using this
          · intro b hb
            simp only [List.mem_map, Prod.mk.injEq, tickets] at hb
            obtain ⟨t', ⟨e, he, hte⟩, hte', _⟩ := hb
            have hsp : s.slots = s.slots.take i ++ s.slots.drop i := (List.take_append_drop i _).symm
            have hso := h.sorted
            rw [hsp, tickets, List.map_append, List.pairwise_append] at hso
            have hd : s.slots.drop i = ⟨t, some sl⟩ :: s.slots.drop (i + 1) := by
              rw [List.drop_eq_getElem_cons hlt]
              rw [(List.getElem?_eq_some_iff.1 hget).2]
            have := hso.2.2 e.ticket (List.mem_map_of_mem he) t (by rw [hd]; simp)
            rw [hte, hte'] at this
            exact Nat.lt_irrefl _ this
        · intro e hee r hr
          simp at hee; subst hee
          simp at hr; exact ⟨t, sl, hr.symm⟩
    · cases hs
  case ret =>
    split at hs
    · next a i t sl hem =>
      cases hs
      have hi := inv_awareReturn h sl
      obtain ⟨e1, e2, e3, e4, e5⟩ := awareReturn_same s sl
      have hpos : i + 1 ≤ s.slots.length := by simpa [Emission.count] using h.pos _ hem
      refine mkInv ⟨hi.sorted, hi.bound, ?_, ?_, ?_, hi.uniq, hi.fresh, events_snoc h.events trivial, ?_⟩
        hi.handles ?_
      · show connections (s.log ++ [.returned t]) = liveOf (awareReturn s sl).slots
        rw [connections_append, h.conns, e1]; rfl
      · show current (s.log ++ [.returned t]) = some (a, (tickets ((awareReturn s sl).slots.take (i + 1))).map fun t => (t, a))
        rw [current_append, h.cur, hem, e1]
        simp [curStep, Emission.count]
      · intro e hee
        simp at hee; subst hee
        show _ ≤ (awareReturn s sl).slots.length
        rw [e1]; simpa [Emission.count] using hpos
      · intro e hee r hr
        simp at hee; subst hee; simp at hr
      · intro h' sl' hh
        exact ⟨(has_congr rfl sl').trans (hi.shared h' sl' hh).1, (hi.shared h' sl' hh).2⟩
    · cases hs

theorem inv_run (acts : List (Act A)) (s : State A) (h : run (init A) acts = some s) : Inv s := by
  have key : ∀ (acts : List (Act A)) (s0 : State A), Inv s0 → run s0 acts = some s → Inv s := by
    intro acts
    induction acts with
    | nil => intro s0 h0 h; cases h; exact h0
    | cons a as ih =>
      intro s0 h0 h
      simp only [run] at h
      cases hs : step s0 a with
      | none => simp [hs] at h
      | some s1 =>
        simp only [hs, Option.bind_some] at h
        exact ih s1 (inv_step h0 hs) h
  exact key acts _ inv_init h

end Maf.Sig
