import Verif.Lemmas.Signal
/-
C23, C24, C25, C57, C58: signals.
-/
namespace Maf.Sig
variable {A : Type}

/-- Every event that ever happens obeys the rules of the specification. -/
theorem emission_rules (acts : List (Act A)) (s : State A) (h : run (init A) acts = some s)
    (l : List (Ev A)) (e : Ev A) (m : List (Ev A)) (hl : s.log = l ++ e :: m) : EventOk l e :=
  (inv_run acts s h).events l e m hl

theorem current_within (l : List (Ev A)) (hl : WithinEmission l) (a : A) (cs : List (Nat × A)) :
    l.foldl curStep (some (a, cs)) = some (a, cs ++ (callsIn l).map fun c => (c.1, c.2.2)) := by
  induction l generalizing cs with
  | nil => simp [callsIn]
  | cons e l ih =>
    have hl' : WithinEmission l := fun x hx => hl x (List.mem_cons_of_mem _ hx)
    have he := hl e (by simp)
    rw [List.foldl_cons]
    cases e with
    | emitted b => exact absurd rfl (he.1 b)
    | emissionDone => exact absurd rfl he.2
    | called t s b =>
      simp only [curStep, Option.map_some]
      rw [ih hl']
      simp [callsIn]
    | added t s => exact ih hl' cs
    | removed t s => exact ih hl' cs
    | returned t => exact ih hl' cs

theorem stays_connected {t : Nat} {sl : SlotId} (l : List (Ev A)) (acc : List (Nat × SlotId))
    (hm : (t, sl) ∈ acc) (hno : ∀ s', Ev.removed t s' ∉ l) : (t, sl) ∈ l.foldl liveStep acc := by
  induction l generalizing acc with
  | nil => exact hm
  | cons e l ih =>
    rw [List.foldl_cons]
    refine ih _ ?_ fun s' hs' => hno s' (List.mem_cons_of_mem _ hs')
    cases e <;> simp only [liveStep] <;> try exact hm
    · exact List.mem_append_left _ hm
    · next t' s' =>
      refine List.mem_filter.2 ⟨hm, ?_⟩
      simp only [bne_iff_ne]
      intro e; subst e
      exact hno s' (by simp)

/-- C23: a complete emission calls, in connection order and each at most once, with the
emitted argument, slots that are connected at that moment; and every slot connected when the
emission started and not disconnected before its end. Whatever the slots do. -/
theorem emission_exact (acts : List (Act A)) (s : State A) (h : run (init A) acts = some s)
    (l1 l2 m : List (Ev A)) (a : A) (hl : s.log = l1 ++ .emitted a :: l2 ++ .emissionDone :: m)
    (hw : WithinEmission l2) :
    ((callsIn l2).map fun c => c.1).Pairwise (· < ·) ∧
    (∀ c ∈ callsIn l2, c.2.2 = a) ∧
    (∀ x t sl b y, l2 = x ++ .called t sl b :: y → (t, sl) ∈ connections (l1 ++ .emitted a :: x)) ∧
    (∀ t sl, (t, sl) ∈ connections l1 → (∀ s', Ev.removed t s' ∉ l2) → (t, sl, a) ∈ callsIn l2) := by
  have hr := emission_rules acts s h
  have hcur : current (l1 ++ .emitted a :: l2) = some (a, (callsIn l2).map fun c => (c.1, c.2.2)) := by
    rw [current_append, List.foldl_cons]
    simp only [curStep]
    rw [current_within l2 hw]; rfl
  obtain ⟨a', cs, hc, h1, h2, h3⟩ := hr _ _ _ hl
  rw [hcur] at hc
  cases hc
  have hconn : ∀ x t sl b y, l2 = x ++ .called t sl b :: y → EventOk (l1 ++ .emitted a :: x) (Ev.called t sl b) := by
    intro x t sl b y hxy
    refine hr _ _ (y ++ .emissionDone :: m) ?_
    rw [hl, hxy]; simp
  refine ⟨?_, ?_, fun x t sl b y hxy => (hconn x t sl b y hxy).1, ?_⟩
  · rw [List.map_map] at h1; exact h1
  · intro c hcm
    exact h2 (c.1, c.2.2) (List.mem_map.2 ⟨c, hcm, rfl⟩)
  · intro t sl hm hno
    have hlive : (t, sl) ∈ connections (l1 ++ .emitted a :: l2) := by
      rw [connections_append]
      refine stays_connected _ _ hm ?_
      intro s' hs'
      rcases List.mem_cons.1 hs' with e | e
      · cases e
      · exact hno s' e
    have := h3 t sl hlive
    rw [List.mem_map] at this
    obtain ⟨⟨t', sl', b⟩, hcm, he⟩ := this
    simp only [Prod.mk.injEq] at he
    obtain ⟨rfl, rfl⟩ := he
    have hcm' := hcm
    simp only [callsIn, List.mem_filterMap] at hcm
    obtain ⟨e, hel, hee⟩ := hcm
    have : e = .called t' sl' b := by
      cases e <;> simp at hee
      obtain ⟨rfl, rfl, rfl⟩ := hee; rfl
    subst this
    obtain ⟨x, y, hxy⟩ := List.append_of_mem hel
    have hev := hconn x t' sl' b y hxy
    have hmid : (t', sl) ∈ connections (l1 ++ .emitted b :: x) := by
      rw [connections_append]
      refine stays_connected _ _ hm ?_
      intro s' hs'
      rcases List.mem_cons.1 hs' with e | e
      · cases e
      · exact hno s' (by rw [hxy]; exact List.mem_append_left _ e)
    have := hev.2.1 sl hmid
    subst this; exact hcm'

/-- C24: once a slot has been disconnected it is not called until it is connected again,
even within the emission during which it was disconnected. -/
theorem disconnected_not_called (acts : List (Act A)) (s : State A) (h : run (init A) acts = some s)
    (l1 l2 : List (Ev A)) (t : Nat) (sl : SlotId) (hl : s.log = l1 ++ .removed t sl :: l2)
    (hno : ∀ t', Ev.added t' sl ∉ l2) : ∀ t' a, Ev.called t' sl a ∉ l2 := by
  have hr := emission_rules acts s h
  intro t' a hm
  obtain ⟨x, y, rfl⟩ := List.append_of_mem hm
  have h1 := hr _ _ _ hl
  have h2 := hr (l1 ++ .removed t sl :: x) (.called t' sl a) y (by rw [hl]; simp)
  have gone : ∀ (x : List (Ev A)) (acc : List (Nat × SlotId)), (∀ t'', (t'', sl) ∉ acc) →
      (∀ t'', Ev.added t'' sl ∉ x) → ∀ t'', (t'', sl) ∉ x.foldl liveStep acc := by
    intro x
    induction x with
    | nil => intro acc hacc _; exact hacc
    | cons e x ih =>
      intro acc hacc hx
      rw [List.foldl_cons]
      refine ih _ ?_ fun t'' ht => hx t'' (List.mem_cons_of_mem _ ht)
      intro t'' hm
      cases e <;> simp only [liveStep] at hm <;> try exact hacc t'' hm
      · next t0 s0 =>
        rcases List.mem_append.1 hm with hm | hm
        · exact hacc t'' hm
        · simp only [List.mem_singleton, Prod.mk.injEq] at hm
          obtain ⟨rfl, rfl⟩ := hm
          exact hx t'' (by simp)
      · exact hacc t'' (List.mem_filter.1 hm).1
  refine gone x (liveStep (connections l1) (Ev.removed t sl : Ev A)) ?_ ?_ t' ?_
  · intro t'' hm
    simp only [liveStep, List.mem_filter, bne_iff_ne] at hm
    exact hm.2 (h1.2 t'' hm.1)
  · intro t'' ht
    exact hno t'' (List.mem_append_left _ ht)
  · have := h2.1
    rw [connections_append, List.foldl_cons] at this
    exact this

/-- `h` is a handle of slot `sl`. -/
def Refers (s : State A) (h : Nat) (sl : SlotId) : Prop :=
  s.handles[h]? = some (Handle.weak sl) ∨ s.handles[h]? = some (Handle.shared sl)

/-- The slot is connected, according to the history. -/
def IsConnected (log : List (Ev A)) (sl : SlotId) : Prop := ∃ t, (t, sl) ∈ connections log

theorem has_iff_connected {s : State A} (h : Inv s) (sl : SlotId) : has s sl = true ↔ IsConnected s.log sl := by
  rw [has_iff, IsConnected, h.conns]
  constructor <;> rintro ⟨t, ht⟩
  · exact ⟨t, mem_liveOf.2 ht⟩
  · exact ⟨t, mem_liveOf.1 ht⟩

/-- C25: `connected()` tells whether the slot of the handle is connected and the signal
exists. -/
theorem connected_truthful (acts : List (Act A)) (s : State A) (hr : run (init A) acts = some s)
    (h : Nat) (sl : SlotId) (hh : Refers s h sl) :
    connected s h = true ↔ s.alive = true ∧ IsConnected s.log sl := by
  have hi := inv_run acts s hr
  rcases hh with hh | hh
  · simp only [connected, hh, Bool.and_eq_true, has_iff_connected hi]
  · simp only [connected, hh, Bool.false_eq_true, false_iff, not_and]
    intro _ hc
    have := (hi.shared h sl hh).1
    rw [(has_iff_connected hi sl).2 hc] at this; cases this

/-- C25/C24: `disconnect()` returns true exactly when the handle was connected; afterwards
its slot is not connected (recorded as removed), and every other slot is as before. -/
theorem disconnect_truthful (acts : List (Act A)) (s : State A) (hr : run (init A) acts = some s)
    (h : Nat) (sl : SlotId) (hh : Refers s h sl) :
    (disconnect s h).2 = connected s h ∧
    ((disconnect s h).2 = true →
      Refers (disconnect s h).1 h sl ∧ connected (disconnect s h).1 h = false ∧
      (∃ t, (disconnect s h).1.log = s.log ++ [.removed t sl] ∧ (t, sl) ∈ connections s.log) ∧
      ¬ IsConnected (disconnect s h).1.log sl) ∧
    ((disconnect s h).2 = false → (disconnect s h).1.log = s.log) ∧
    (∀ sl', sl' ≠ sl → (IsConnected (disconnect s h).1.log sl' ↔ IsConnected s.log sl')) := by
  have hi := inv_run acts s hr
  have hi' := inv_disconnect hi h
  rcases hh with hh | hh
  · cases ha : s.alive with
    | false =>
      simp [disconnect, connected, hh, ha]
    | true =>
      rcases remove_spec hi.core sl with ⟨h1, h2, h3⟩ | ⟨h1, h2, h3, ⟨t, ht, h4⟩, h5, h6, h7, h8, h9, h10, h11, h12, h13, hc⟩
      · have hrm : remove s sl = (s, false) := by rw [← h1]; conv => rhs; arg 1; rw [← h2]
        have hd : disconnect s h = (s, false) := by simp [disconnect, hh, ha, hrm]
        rw [hd]
        simp [connected, hh, ha, h3]
      · have hrm : remove s sl = ((remove s sl).1, true) := by rw [← h1]
        have hd : disconnect s h = ({ (remove s sl).1 with handles := (remove s sl).1.handles.set h (.shared sl) }, true) := by
          simp only [disconnect, hh, ha, if_true]
          rw [hrm]
        have hlt : h < s.handles.length := (List.getElem?_eq_some_iff.1 hh).1
        have hlog : (disconnect s h).1.log = s.log ++ [.removed t sl] := by rw [hd]; exact h4
        have hget : (disconnect s h).1.handles[h]? = some (Handle.shared sl) := by
          rw [hd]
          show ((remove s sl).1.handles.set h (.shared sl))[h]? = _
          rw [h6, List.getElem?_set_self hlt]
        refine ⟨?_, ?_, ?_, ?_⟩
        · rw [hd]; simp [connected, hh, ha, h2]
        · intro _
          refine ⟨.inr hget, ?_, ⟨t, hlog, ?_⟩, ?_⟩
          · simp only [connected, hget]
          · rw [hi.conns]; exact ht
          · rw [← has_iff_connected hi']
            have := (hi'.shared h sl hget).1
            simp [this]
        · rw [hd]; intro h0; cases h0
        · intro sl' hne
          rw [← has_iff_connected hi', ← has_iff_connected hi]
          have : has (disconnect s h).1 sl' = has s sl' := by
            rw [hd]; exact (has_congr rfl sl').trans (h5 sl' hne)
          rw [this]
  · simp [disconnect, connected, hh]

/-- C25: `reconnect()` returns true exactly when the signal exists and this handle has
disconnected its slot; it adds the same slot at the end of the connections, which then has
exactly one connection. -/
theorem reconnect_truthful (acts : List (Act A)) (s : State A) (hr : run (init A) acts = some s)
    (h : Nat) (sl : SlotId) (hh : Refers s h sl) :
    ((reconnect s h).2 = true ↔ s.alive = true ∧ s.handles[h]? = some (Handle.shared sl)) ∧
    ((reconnect s h).2 = true → ¬ IsConnected s.log sl ∧ Refers (reconnect s h).1 h sl ∧
      connected (reconnect s h).1 h = true ∧
      (∃ t, connections (reconnect s h).1.log = connections s.log ++ [(t, sl)])) ∧
    ((reconnect s h).2 = false → (reconnect s h).1 = s) := by
  have hi := inv_run acts s hr
  rcases hh with hh | hh
  · simp [reconnect, hh]
  · cases ha : s.alive with
    | false => simp [reconnect, hh, ha]
    | true =>
      have hrc := reconnect_shared hi hh ha
      have hlt : h < s.handles.length := (List.getElem?_eq_some_iff.1 hh).1
      have hget : (reconnect s h).1.handles[h]? = some (Handle.weak sl) := by
        rw [hrc]; show (s.handles.set h (Handle.weak sl))[h]? = _
        rw [List.getElem?_set_self hlt]
      have hno := (hi.shared h sl hh).1
      refine ⟨by rw [hrc]; simp [hh], fun _ => ⟨?_, .inl hget, ?_, s.next, ?_⟩, by rw [hrc]; intro h0; cases h0⟩
      · rw [← has_iff_connected hi]; simp [hno]
      · simp only [connected, hget, Bool.and_eq_true]
        rw [hrc]
        refine ⟨ha, (has_congr (s := add s sl) rfl sl).trans ?_⟩
        rw [has_add]; simp
      · rw [hrc]; show connections (s.log ++ [.added s.next sl]) = _
        rw [connections_append]; rfl

/-- C25: no slot ever has two connections. -/
theorem connected_once (acts : List (Act A)) (s : State A) (hr : run (init A) acts = some s) :
    ((connections s.log).map Prod.snd).Nodup ∧ ((connections s.log).map Prod.fst).Pairwise (· < ·) := by
  have hi := inv_run acts s hr
  refine ⟨by rw [hi.conns]; exact hi.uniq, ?_⟩
  rw [hi.conns]
  have : ((liveOf s.slots).map Prod.fst).Sublist (tickets s.slots) := by
    generalize s.slots = es
    induction es with
    | nil => simp [liveOf]
    | cons x es ih =>
      rcases x with ⟨t, o⟩
      cases o with
      | none => exact List.Sublist.cons _ ih
      | some sl => exact ih.cons_cons t
  exact List.Pairwise.sublist this hi.sorted

/-- C25: a connect returns a handle which refers to its new slot and is connected. -/
theorem connect_connected (acts : List (Act A)) (s s' : State A) (hr : run (init A) acts = some s)
    (hs : step s .connect = some s') :
    ∃ t sl, connections s'.log = connections s.log ++ [(t, sl)] ∧ ¬ IsConnected s.log sl ∧
      Refers s' s.handles.length sl ∧ connected s' s.handles.length = true := by
  have hi := inv_run acts s hr
  simp only [step, body] at hs
  split at hs
  · cases hs
  split at hs
  · next hg =>
    simp only [Bool.and_eq_true] at hg
    cases hs
    refine ⟨s.next, s.nextSlot, ?_, ?_, .inl (by simp), ?_⟩
    · show connections (s.log ++ [.added s.next s.nextSlot]) = _
      rw [connections_append]; rfl
    · rintro ⟨t, ht⟩
      rw [hi.conns] at ht
      exact absurd (hi.fresh _ ht) (Nat.lt_irrefl _)
    · simp only [connected, List.getElem?_concat_length, Bool.and_eq_true]
      refine ⟨hg.1, (has_congr (s := add s s.nextSlot) rfl _).trans ?_⟩
      rw [has_add]; simp
  · cases hs

/-- C58: when a scoped connection goes out of scope its slot is not connected. -/
theorem scope_end_disconnects (acts : List (Act A)) (s s' : State A) (hr : run (init A) acts = some s)
    (h : Nat) (sl : SlotId) (hh : Refers s h sl) (hs : step s (.scopeEnd h) = some s') :
    (s.alive = true → ¬ IsConnected s'.log sl) ∧
    ∀ sl', sl' ≠ sl → (IsConnected s'.log sl' ↔ IsConnected s.log sl') := by
  have hlog : ∀ x : State A, (dropHandle x h).log = x.log := by
    intro x; unfold dropHandle; split <;> rfl
  simp only [step, body] at hs
  split at hs
  · cases hs
  split at hs
  · cases hs
    rw [hlog]
    obtain ⟨d1, d2, d3, d4⟩ := disconnect_truthful acts s hr h sl hh
    split
    · next hc =>
      rw [hc] at d1
      exact ⟨fun _ => (d2 d1).2.2.2, d4⟩
    · next hc =>
      refine ⟨fun ha hcon => hc ((connected_truthful acts s hr h sl hh).2 ⟨ha, hcon⟩), fun _ _ => Iff.rfl⟩
  · cases hs

/-! ### C57: what slots may do while they are called -/

/-- What a well-behaved program does: it clears, destroys or emits a signal only when no
emission of it is in progress, does not destroy connection objects during an emission, and
does not disconnect a connection-aware slot through the connection passed to it unless it
keeps a copy of that connection. -/
def polite (s : State A) : Act A → Bool
  | .clear | .destroy | .emit _ | .drop _ | .scopeEnd _ => s.emission.isNone
  | .disconnect h => s.aware.all fun p => p.2 != h || s.kept.contains p.1
  | _ => true

def politeRun (s : State A) : List (Act A) → Bool
  | [] => true
  | a :: as => polite s a && match step s a with
    | some s' => politeRun s' as
    | none => true

/-- A connection-aware slot that was disconnected through its own connection is kept. -/
def Kept (s : State A) : Prop :=
  (∀ p ∈ s.aware, s.handles[p.2]? = some (Handle.shared p.1) → s.kept.contains p.1 = true) ∧
  (∀ p ∈ s.aware, p.2 < s.handles.length)

theorem lookup_mem {l : List (SlotId × Nat)} {sl : SlotId} {h : Nat} (hl : l.lookup sl = some h) : (sl, h) ∈ l := by
  induction l with
  | nil => cases hl
  | cons x l ih =>
    rcases x with ⟨a, b⟩
    rw [List.lookup_cons] at hl
    split at hl
    · next he => simp at he; cases hl; simp [he]
    · exact List.mem_cons_of_mem _ (ih hl)

theorem remove_handles (s : State A) (sl : SlotId) :
    (remove s sl).1.handles = s.handles ∧ (remove s sl).1.aware = s.aware ∧ (remove s sl).1.kept = s.kept ∧
    (remove s sl).1.ub = s.ub ∧ (remove s sl).1.emission = s.emission := by
  unfold remove
  split
  · simp
  · split
    · simp
    · split <;> simp

theorem kept_set {s s' : State A} (hk : Kept s) (h : Nat) (x : Handle) (h1 : s'.handles = s.handles.set h x)
    (h2 : s'.aware = s.aware) (h3 : s'.kept = s.kept)
    (hx : ∀ p ∈ s.aware, p.2 = h → x = .shared p.1 → s.kept.contains p.1 = true) : Kept s' := by
  refine ⟨?_, ?_⟩
  · intro p hp hg
    rw [h2] at hp; rw [h1] at hg; rw [h3]
    rcases getElem?_set_cases hg with ⟨e1, e2⟩ | ⟨_, e⟩
    · exact hx p hp e1 e2.symm
    · exact hk.1 p hp e
  · intro p hp
    rw [h2] at hp; rw [h1]; simpa using hk.2 p hp

theorem kept_congr {s s' : State A} (hk : Kept s) (h1 : s'.handles = s.handles)
    (h2 : s'.aware = s.aware) (h3 : s'.kept = s.kept) : Kept s' := by
  unfold Kept; rw [h1, h2, h3]; exact hk

theorem disconnect_fields (s : State A) (h : Nat) :
    (disconnect s h).1.aware = s.aware ∧ (disconnect s h).1.kept = s.kept ∧ (disconnect s h).1.ub = s.ub ∧
    (disconnect s h).1.emission = s.emission ∧
    ((disconnect s h).1.handles = s.handles ∨ ∃ x, (disconnect s h).1.handles = s.handles.set h x) := by
  unfold disconnect
  split
  · next sl hsl =>
    split
    · have := remove_handles s sl
      split
      · next s1 he => rw [he] at this; refine ⟨this.2.1, this.2.2.1, this.2.2.2.1, this.2.2.2.2, .inr ⟨.shared sl, congrArg (fun l => l.set h (Handle.shared sl)) this.1⟩⟩
      · next s1 he => rw [he] at this; exact ⟨this.2.1, this.2.2.1, this.2.2.2.1, this.2.2.2.2, .inl this.1⟩
    · exact ⟨rfl, rfl, rfl, rfl, .inr ⟨_, rfl⟩⟩
  · exact ⟨rfl, rfl, rfl, rfl, .inl rfl⟩

theorem kept_disconnect {s : State A} (hk : Kept s) (h : Nat)
    (hp : (s.aware.all fun p => p.2 != h || s.kept.contains p.1) = true) : Kept (disconnect s h).1 := by
  obtain ⟨h1, h2, _, _, h3⟩ := disconnect_fields s h
  rcases h3 with h3 | ⟨x, h3⟩
  · exact kept_congr hk h3 h1 h2
  · refine kept_set hk h x h3 h1 h2 ?_
    intro p hpm he _
    rw [List.all_eq_true] at hp
    have := hp p hpm
    rw [he] at this; simpa using this

theorem dropHandle_fields (s : State A) (h : Nat) : (dropHandle s h).handles = s.handles.set h .empty ∧
    (dropHandle s h).aware = s.aware ∧ (dropHandle s h).kept = s.kept ∧ (dropHandle s h).emission = s.emission := by
  unfold dropHandle; split <;> exact ⟨rfl, rfl, rfl, rfl⟩

theorem dropHandle_ub (s : State A) (h : Nat) (he : s.emission = none) (hu : s.ub = false) : (dropHandle s h).ub = false := by
  unfold dropHandle; split
  · simp [isRunning, he]
  · exact hu

theorem kept_drop {s : State A} (hk : Kept s) (h : Nat) : Kept (dropHandle s h) := by
  obtain ⟨h1, h2, h3, _⟩ := dropHandle_fields s h
  exact kept_set hk h .empty h1 h2 h3 (by intro p _ _ e; cases e)

theorem kept_step {s s' : State A} {a : Act A} (hk : Kept s) (hp : polite s a = true) (hs : step s a = some s') :
    Kept s' ∧ s'.ub = false := by
  simp only [step] at hs
  split at hs
  · cases hs
  next hu =>
  replace hu : s.ub = false := by simpa using hu
  cases a <;> simp only [body] at hs
  case connect =>
    split at hs
    · cases hs
      refine ⟨⟨?_, ?_⟩, hu⟩
      · intro p hp hg
        have hl := hk.2 p hp
        replace hg : (s.handles ++ [Handle.weak s.nextSlot])[p.2]? = some (Handle.shared p.1) := hg
        rw [List.getElem?_append_left hl] at hg
        exact hk.1 p hp hg
      · intro p hp
        have hl := hk.2 p hp
        show p.2 < (s.handles ++ [Handle.weak s.nextSlot]).length
        simp; omega
    · cases hs
  case connectAware =>
    split at hs
    · cases hs
      refine ⟨⟨?_, ?_⟩, hu⟩
      · intro p hp hg
        replace hg : (s.handles ++ [Handle.weak s.nextSlot, Handle.weak s.nextSlot])[p.2]? = some (Handle.shared p.1) := hg
        replace hp : p ∈ s.aware ++ [(s.nextSlot, s.handles.length + 1)] := hp
        rcases List.mem_append.1 hp with hp | hp
        · rw [List.getElem?_append_left (hk.2 p hp)] at hg
          exact hk.1 p hp hg
        · simp at hp; subst hp
          rw [List.getElem?_append_right (by simp)] at hg
          simp at hg
      · intro p hp
        replace hp : p ∈ s.aware ++ [(s.nextSlot, s.handles.length + 1)] := hp
        show p.2 < (s.handles ++ [Handle.weak s.nextSlot, Handle.weak s.nextSlot]).length
        rcases List.mem_append.1 hp with hp | hp
        · have := hk.2 p hp; simp; omega
        · simp at hp; subst hp; simp
    · cases hs
  case keep =>
    split at hs
    · cases hs
      refine ⟨⟨fun p hp hg => ?_, hk.2⟩, hu⟩
      have := hk.1 p hp hg
      simp only [List.contains_eq_mem, List.mem_append, decide_eq_true_eq] at this ⊢
      exact .inl this
    · cases hs
  case disconnect n =>
    split at hs
    · cases hs
      exact ⟨kept_disconnect hk n hp, (disconnect_fields s n).2.2.1.trans hu⟩
    · cases hs
  case reconnect n =>
    split at hs
    · cases hs
      unfold reconnect
      split
      · next sl hsl =>
        split
        · have hf : (addUnique s sl).1.handles = s.handles ∧ (addUnique s sl).1.aware = s.aware ∧
              (addUnique s sl).1.kept = s.kept ∧ (addUnique s sl).1.ub = s.ub := by
            unfold addUnique; split <;> exact ⟨rfl, rfl, rfl, rfl⟩
          split
          · next s1 he =>
            rw [he] at hf
            refine ⟨kept_set hk n (.weak sl) (congrArg (fun l => l.set n (Handle.weak sl)) hf.1) hf.2.1 hf.2.2.1 (by intro p _ _ e; cases e), hf.2.2.2.trans hu⟩
          · next s1 he =>
            rw [he] at hf
            refine ⟨kept_set hk n .empty (congrArg (fun l => l.set n Handle.empty) hf.1) hf.2.1 hf.2.2.1 (by intro p _ _ e; cases e), hf.2.2.2.trans hu⟩
        · exact ⟨hk, hu⟩
      · exact ⟨hk, hu⟩
    · cases hs
  case drop n =>
    split at hs
    · cases hs
      exact ⟨kept_drop hk n, dropHandle_ub _ _ (by simpa [polite] using hp) hu⟩
    · cases hs
  case scopeEnd n =>
    split at hs
    · next hg =>
      simp only [Bool.and_eq_true] at hg
      cases hs
      have he : s.emission = none := by simpa [polite] using hp
      split
      · have hf := disconnect_fields s n
        refine ⟨kept_drop (kept_disconnect hk n ?_) n, dropHandle_ub _ _ (hf.2.2.2.1.trans he) (hf.2.2.1.trans hu)⟩
        rw [List.all_eq_true] at hg ⊢
        intro p hpm; rw [hg.2 p hpm]; rfl
      · exact ⟨kept_drop hk n, dropHandle_ub _ _ he hu⟩
    · cases hs
  case clear =>
    have he : s.emission = none := by simpa [polite] using hp
    simp only [he] at hs
    split at hs
    · cases hs; exact ⟨kept_congr hk rfl rfl rfl, hu⟩
    · cases hs
  case destroy =>
    have he : s.emission = none := by simpa [polite] using hp
    simp only [he] at hs
    split at hs
    · cases hs; exact ⟨kept_congr hk rfl rfl rfl, hu⟩
    · cases hs
  case emit a =>
    have he : s.emission = none := by simpa [polite] using hp
    simp only [he] at hs
    split at hs
    · split at hs
      · cases hs; exact ⟨hk, hu⟩
      · cases hs; exact ⟨kept_congr hk rfl rfl rfl, hu⟩
    · cases hs
  case iter =>
    split at hs
    · split at hs <;> cases hs <;> exact ⟨kept_congr hk rfl rfl rfl, hu⟩
    · cases hs
  case ret =>
    split at hs
    · next a i t sl hem =>
      cases hs
      have : Kept (awareReturn s sl) ∧ (awareReturn s sl).ub = false := by
        unfold awareReturn
        split
        · exact ⟨hk, hu⟩
        · next h hl =>
          split
          · next hg =>
            have := hk.1 (sl, h) (lookup_mem hl) hg
            rw [if_pos (by simp only at this; rw [this]; simp)]
            exact ⟨kept_set hk h .empty rfl rfl rfl (by intro p _ _ e; cases e), hu⟩
          · exact ⟨hk, hu⟩
      exact ⟨kept_congr this.1 rfl rfl rfl, this.2⟩
    · cases hs

theorem refers_set {s s' : State A} {h n : Nat} {sl : SlotId} {x : Handle} (hh : Refers s h sl)
    (h1 : s'.handles = s.handles.set n x) (hx : n = h → x = .weak sl ∨ x = .shared sl) : Refers s' h sl := by
  unfold Refers
  rw [h1]
  by_cases e : n = h
  · subst e
    have hlt : n < s.handles.length := by
      rcases hh with hh | hh <;> exact (List.getElem?_eq_some_iff.1 hh).1
    rw [List.getElem?_set_self hlt]
    rcases hx rfl with rfl | rfl
    · exact .inl rfl
    · exact .inr rfl
  · rw [List.getElem?_set_ne e]; exact hh

theorem refers_append {s s' : State A} {h : Nat} {sl : SlotId} {l : List Handle} (hh : Refers s h sl)
    (h1 : s'.handles = s.handles ++ l) : Refers s' h sl := by
  unfold Refers
  have hlt : h < s.handles.length := by
    rcases hh with hh | hh <;> exact (List.getElem?_eq_some_iff.1 hh).1
  rw [h1, List.getElem?_append_left hlt]; exact hh

/-- C25: while the signal exists, a handle refers to the same slot until it is destroyed (or
is the handle passed to a connection-aware slot which has returned). -/
theorem handle_stable (acts : List (Act A)) (s s' : State A) (hr : run (init A) acts = some s) (a : Act A)
    (hs : step s a = some s') (h : Nat) (sl : SlotId) (hh : Refers s h sl) (ha : s.alive = true)
    (h1 : a ≠ .drop h) (h2 : a ≠ .scopeEnd h) (h3 : a = .ret → ∀ p ∈ s.aware, p.2 ≠ h) : Refers s' h sl := by
  have hi := inv_run acts s hr
  have hdis : ∀ n, Refers (disconnect s n).1 h sl := by
    intro n
    unfold disconnect
    split
    · next sl' hsl =>
      rw [if_pos ha]
      have hf := (remove_handles s sl').1
      split
      · next s1 he =>
        rw [he] at hf
        refine refers_set hh (congrArg (fun l => l.set n (Handle.shared sl')) hf) ?_
        intro e; subst e
        rcases hh with hh | hh <;> rw [hh] at hsl <;> cases hsl
        exact .inr rfl
      · next s1 he => rw [he] at hf; simp only at hf; simpa only [Refers, hf] using hh
    · exact hh
  simp only [step] at hs
  split at hs
  · cases hs
  cases a <;> simp only [body] at hs
  case connect =>
    split at hs <;> cases hs
    exact refers_append hh rfl
  case connectAware =>
    split at hs <;> cases hs
    exact refers_append hh rfl
  case keep =>
    split at hs <;> cases hs
    exact hh
  case disconnect n =>
    split at hs <;> cases hs
    exact hdis n
  case reconnect n =>
    split at hs <;> cases hs
    cases hn : s.handles[n]? with
    | none => simpa [reconnect, hn] using hh
    | some x =>
      cases x with
      | weak sl => simpa [reconnect, hn] using hh
      | empty => simpa [reconnect, hn] using hh
      | shared sl' =>
        rw [reconnect_shared hi hn ha]
        refine refers_set hh rfl ?_
        intro e; subst e
        rcases hh with hh | hh <;> rw [hh] at hn <;> cases hn
        exact .inl rfl
  case drop n =>
    split at hs <;> cases hs
    exact refers_set hh (dropHandle_fields s n).1 (fun e => absurd (by rw [e]) h1)
  case scopeEnd n =>
    split at hs <;> cases hs
    have hne : n ≠ h := fun e => h2 (by rw [e])
    split
    · exact refers_set (hdis n) (dropHandle_fields _ n).1 (fun e => absurd e hne)
    · exact refers_set hh (dropHandle_fields _ n).1 (fun e => absurd e hne)
  case clear =>
    split at hs
    · split at hs <;> cases hs <;> exact hh
    · cases hs
  case destroy =>
    split at hs
    · split at hs <;> cases hs <;> exact hh
    · cases hs
  case emit b =>
    split at hs
    · split at hs
      · cases hs; exact hh
      · split at hs <;> cases hs <;> exact hh
    · cases hs
  case iter =>
    split at hs
    · split at hs <;> cases hs <;> exact hh
    · cases hs
  case ret =>
    split at hs
    · next b i t sl' hem =>
      cases hs
      show Refers (awareReturn s sl') h sl
      unfold awareReturn
      split
      · exact hh
      · next n hl =>
        split
        · split
          · exact refers_set hh rfl (fun e => absurd e (h3 rfl _ (lookup_mem hl)))
          · exact hh
        · exact hh
    · cases hs

/-- C57, the part that holds: polite programs never run into undefined behaviour, whatever
slots connect, disconnect and reconnect while an emission is in progress. Missing: a
connection-aware slot which disconnects itself; `clear`, destruction and emission from
within a slot. -/
theorem reentrancy_safe_partial (acts : List (Act A)) (s : State A) (hr : run (init A) acts = some s)
    (hp : politeRun (init A) acts = true) : s.ub = false := by
  have key : ∀ (acts : List (Act A)) (s0 : State A), Kept s0 → s0.ub = false → politeRun s0 acts = true →
      run s0 acts = some s → s.ub = false := by
    intro acts
    induction acts with
    | nil => intro s0 _ h0 _ h; cases h; exact h0
    | cons a as ih =>
      intro s0 hk h0 hp h
      simp only [run] at h
      simp only [politeRun, Bool.and_eq_true] at hp
      cases hs : step s0 a with
      | none => simp [hs] at h
      | some s1 =>
        simp only [hs, Option.bind_some] at h
        have hp2 := hp.2
        simp only [hs] at hp2
        obtain ⟨k1, k2⟩ := kept_step hk hp.1 hs
        exact ih s1 k1 k2 hp2 h
  exact key acts _ ⟨by simp [init], by simp [init]⟩ rfl hp hr

/-- C57 does not hold: a connection-aware slot which disconnects itself through the
connection it is given (the purpose of that connection) makes the wrapper of the slot use
a destroyed object. The slots made for tracked objects do this when the object is gone. -/
theorem self_disconnect_undefined :
    ∃ s : State Nat, run (init Nat) [.connectAware, .emit 7, .iter, .disconnect 1, .ret] = some s ∧ s.ub = true :=
  ⟨_, rfl, rfl⟩

/-- Emitting a signal again from one of its own slots is an assertion failure (undefined in a
release build), and so is removing all connections from within a slot. -/
theorem nested_emit_undefined :
    (∃ s : State Nat, run (init Nat) [.connect, .emit 7, .iter, .emit 8] = some s ∧ s.ub = true) ∧
    (∃ s : State Nat, run (init Nat) [.connect, .emit 7, .iter, .clear] = some s ∧ s.ub = true) ∧
    (∃ s : State Nat, run (init Nat) [.connect, .emit 7, .iter, .scopeEnd 0] = some s ∧ s.ub = true) :=
  ⟨⟨_, rfl, rfl⟩, ⟨_, rfl, rfl⟩, ⟨_, rfl, rfl⟩⟩

/-! ### The hypotheses are met -/

/-- Three slots; the first disconnects the second, reconnects it and connects a fourth while
being called. The second one (now after the third) and the fourth are called too. -/
def sample : List (Act Nat) :=
  [.connect, .connect, .connect, .emit 5, .iter, .disconnect 1, .reconnect 1, .connect, .ret,
   .iter, .iter, .ret, .iter, .ret, .iter, .ret, .iter]

example : (run (init Nat) sample).map (fun s => s.log) = some
    [.added 0 0, .added 1 1, .added 2 2, .emitted 5, .called 0 0 5, .removed 1 1, .added 3 1, .added 4 3, .returned 0,
     .called 2 2 5, .returned 2, .called 3 1 5, .returned 3, .called 4 3 5, .returned 4, .emissionDone] := rfl

example : politeRun (init Nat) sample = true := rfl

/-- A self-disconnecting connection-aware slot that keeps its connection is fine. -/
example : politeRun (init Nat) [.connectAware, .emit 7, .iter, .keep, .disconnect 1, .ret, .iter, .iter] = true ∧
    ((run (init Nat) [.connectAware, .emit 7, .iter, .keep, .disconnect 1, .ret, .iter]).map fun s => s.ub) = some false :=
  ⟨rfl, rfl⟩

/-- A slot disconnected in the middle of an emission, before its turn, is not called. -/
example : (run (init Nat) [.connect, .connect, .emit 5, .iter, .disconnect 1, .ret, .iter, .iter]).map (fun s => s.log) = some
    [.added 0 0, .added 1 1, .emitted 5, .called 0 0 5, .removed 1 1, .returned 0, .emissionDone] := rfl

example : ∃ s, run (init Nat) [.connect] = some s ∧ Refers s 0 0 ∧ (disconnect s 0).2 = true ∧
    (reconnect (disconnect s 0).1 0).2 = true ∧ (step s (.scopeEnd 0)).isSome :=
  ⟨_, rfl, .inl rfl, rfl, rfl, rfl⟩

end Maf.Sig
