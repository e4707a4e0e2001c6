import Verif.Props.Signal
import Verif.Lemmas.SignalTimer
/-
C124: timers with a signal.
-/
namespace Maf.Stm
open Maf.Tmr (Tm)

/-- The timers and each signal behave as they do on their own: what C23-C25, C29-C32, C57, C58 and C62 say about them holds here. -/
theorem parts {as : List Act} {s : State} (hr : run init as = some s) :
    (∃ bs, Tmr.run Tmr.init bs = some s.t ∧ tmOf s.log = s.t.log) ∧ ∀ i, ∃ bs, Sig.run (Sig.init Nat) bs = some (s.sig i) ∧ sgOf i s.log = (s.sig i).log := by
  have h := reach_inv hr
  obtain ⟨bs, hbs⟩ := h.tr
  refine ⟨⟨bs, hbs, h.tl⟩, fun i => ?_⟩
  obtain ⟨bs, hbs⟩ := h.sr i
  exact ⟨bs, hbs, h.sl i⟩

/-- The signal is emitted by expiries only: the `k`-th emission directly follows the `k`-th expiry. -/
theorem emission_is_expiry {as : List Act} {s : State} (hr : run init as = some s) {i : Tm} {k : Nat} {l1 l2 : List Ev} (hl : s.log = l1 ++ .sg i (.emitted k) :: l2) :
    ∃ m t dl c, l1 = m ++ [.tm (.fired i t dl c)] ∧ expiries i m = k := (reach_inv hr).rules.all l1 _ l2 hl

/-- Every expiry emits the signal, at once, unless nobody is connected (or the program ends in undefined behaviour right there). -/
theorem expiry_emits {as : List Act} {s : State} (hr : run init as = some s) {i : Tm} {t dl : Nat} {c : Bool} {l1 l2 : List Ev} (hl : s.log = l1 ++ .tm (.fired i t dl c) :: l2)
    (hc : Sig.connections (sgOf i l1) ≠ []) (hu : s.ub = false ∨ l2 ≠ []) : ∃ l3, l2 = .sg i (.emitted (expiries i l1)) :: l3 := by
  rcases (reach_inv hr).emits i t dl c l1 l2 hl hc with h | ⟨h1, h2⟩
  · exact h
  · rcases hu with hu | hu
    · rw [hu] at h1; cases h1
    · exact absurd h2 hu

theorem current_some {l : List (Sig.Ev Nat)} (h : Sig.Ev.emissionDone ∉ l) : ∀ acc : Option (Nat × List (Nat × Nat)), acc.isSome = true → (l.foldl Sig.curStep acc).isSome = true := by
  induction l with
  | nil => intro acc h; exact h
  | cons e l ih =>
    intro acc ha
    simp only [List.foldl_cons]
    refine ih (fun hm => h (by simp [hm])) _ ?_
    cases e <;> simp_all [Sig.curStep]

theorem mem_sgOf {i : Tm} {l : List Ev} {e : Sig.Ev Nat} : e ∈ sgOf i l ↔ .sg i e ∈ l := by
  simp only [sgOf, List.mem_filterMap]
  constructor
  · rintro ⟨x, hx, hxe⟩
    cases x with
    | sg j f =>
      simp at hxe
      obtain ⟨rfl, rfl⟩ := hxe
      exact hx
    | _ => simp at hxe
  · intro h; exact ⟨_, h, by simp⟩

theorem sgOf_split {i : Tm} {l : List Ev} {e : Sig.Ev Nat} {x y : List (Sig.Ev Nat)} (h : sgOf i l = x ++ e :: y) : ∃ a b, l = a ++ .sg i e :: b ∧ sgOf i a = x ∧ sgOf i b = y := by
  induction l generalizing x with
  | nil => simp [sgOf] at h
  | cons f l ih =>
    by_cases hf : ∃ g, f = .sg i g
    · obtain ⟨g, rfl⟩ := hf
      have hs : sgOf i (.sg i g :: l) = g :: sgOf i l := by simp [sgOf]
      rw [hs] at h
      cases x with
      | nil => simp at h; obtain ⟨rfl, rfl⟩ := h; exact ⟨[], l, rfl, rfl, rfl⟩
      | cons z x =>
        simp at h
        obtain ⟨rfl, h⟩ := h
        obtain ⟨a, b, rfl, rfl, rfl⟩ := ih h
        exact ⟨.sg i g :: a, b, rfl, by simp [sgOf], rfl⟩
    · have hs : ∀ m, sgOf i (f :: m) = sgOf i m := by
        intro m
        cases f with
        | sg j g =>
          have : j ≠ i := by rintro rfl; exact hf ⟨g, rfl⟩
          simp [sgOf, this]
        | _ => simp [sgOf]
      rw [hs] at h
      obtain ⟨a, b, rfl, rfl, rfl⟩ := ih h
      exact ⟨f :: a, b, rfl, hs a, rfl⟩

/-- From an expiry to the end of its emission: the slots that are called are called in connection order, each once, while they are connected; every slot connected when the timer
expired, and not disconnected meanwhile, is called. -/
theorem expiry_calls {as : List Act} {s : State} (hr : run init as = some s) {i : Tm} {t dl : Nat} {c : Bool} {l1 l2 l3 : List Ev}
    (hl : s.log = l1 ++ .tm (.fired i t dl c) :: l2 ++ .sg i .emissionDone :: l3) (hd : .sg i .emissionDone ∉ l2) (hc : Sig.connections (sgOf i l1) ≠ []) :
    ((Sig.callsIn (sgOf i l2)).map (·.1)).Pairwise (· < ·) ∧
    (∀ x y tk sl k, l2 = x ++ .sg i (.called tk sl k) :: y → (tk, sl) ∈ Sig.connections (sgOf i (l1 ++ x)) ∧ k = expiries i l1) ∧
    (∀ tk sl, (tk, sl) ∈ Sig.connections (sgOf i l1) → (∀ sl', .sg i (.removed tk sl') ∉ l2) → .sg i (.called tk sl (expiries i l1)) ∈ l2) := by
  have hI := reach_inv hr
  obtain ⟨bs, hbs⟩ := hI.sr i
  obtain ⟨m, hm⟩ := expiry_emits hr (i := i) (t := t) (dl := dl) (c := c) (l1 := l1) (l2 := l2 ++ .sg i .emissionDone :: l3) (by rw [hl]; simp) hc (Or.inr (by simp))
  cases l2 with
  | nil => simp at hm
  | cons e l2 =>
    simp at hm
    obtain ⟨rfl, rfl⟩ := hm
    have hs : ∀ m, sgOf i (.sg i (.emitted (expiries i l1)) :: m) = .emitted (expiries i l1) :: sgOf i m := by intro m; simp [sgOf]
    have hs' : ∀ m, sgOf i (.sg i .emissionDone :: m) = .emissionDone :: sgOf i m := by intro m; simp [sgOf]
    have hf : ∀ m, sgOf i (.tm (.fired i t dl c) :: m) = sgOf i m := by intro m; simp [sgOf]
    have hlog : (s.sig i).log = sgOf i l1 ++ .emitted (expiries i l1) :: sgOf i l2 ++ .emissionDone :: sgOf i l3 := by
      rw [← hI.sl i, hl, sgOf_append, sgOf_append, hf, hs, hs']
    have hw : Sig.WithinEmission (sgOf i l2) := by
      intro e he
      refine ⟨?_, ?_⟩
      · rintro k rfl
        obtain ⟨x, y, hxy⟩ := List.append_of_mem he
        have hev := Sig.emission_rules bs _ hbs (sgOf i l1 ++ .emitted (expiries i l1) :: x) (.emitted k) (y ++ .emissionDone :: sgOf i l3) (by rw [hlog, hxy]; simp)
        have hno : Sig.Ev.emissionDone ∉ x := by
          intro hx
          have : Sig.Ev.emissionDone ∈ sgOf i l2 := by rw [hxy]; simp [hx]
          exact hd (by simp [mem_sgOf.1 this])
        have := current_some hno (some (expiries i l1, [])) rfl
        simp only [Sig.EventOk, Sig.current, List.foldl_append, List.foldl_cons, Sig.curStep] at hev
        rw [hev] at this; cases this
      · rintro rfl; exact hd (by simp [mem_sgOf.1 he])
    obtain ⟨h1, h2, h3, h4⟩ := Sig.emission_exact bs _ hbs (sgOf i l1) (sgOf i l2) (sgOf i l3) (expiries i l1) hlog hw
    have hci : Sig.callsIn (sgOf i (.sg i (.emitted (expiries i l1)) :: l2)) = Sig.callsIn (sgOf i l2) := by rw [hs]; simp [Sig.callsIn]
    refine ⟨by rw [hci]; exact h1, ?_, ?_⟩
    · intro x y tk sl k hxy
      cases x with
      | nil => simp at hxy
      | cons f x =>
        simp at hxy
        obtain ⟨rfl, rfl⟩ := hxy
        have hs2 : ∀ m, sgOf i (.sg i (.called tk sl k) :: m) = .called tk sl k :: sgOf i m := by intro m; simp [sgOf]
        refine ⟨?_, ?_⟩
        · have := h3 (sgOf i x) tk sl k (sgOf i y) (by rw [sgOf_append, hs2])
          rw [sgOf_append, hs]; exact this
        · exact h2 (tk, sl, k) (by simp only [Sig.callsIn, List.mem_filterMap]; exact ⟨.called tk sl k, by rw [mem_sgOf]; simp, rfl⟩)
    · intro tk sl hcn hno
      have := h4 tk sl hcn (by intro s' hm; exact hno s' (by simp [mem_sgOf.1 hm]))
      simp only [Sig.callsIn, List.mem_filterMap] at this
      obtain ⟨e, he, hee⟩ := this
      cases e with
      | called a b d =>
        simp at hee
        obtain ⟨rfl, rfl, rfl⟩ := hee
        simp [mem_sgOf.1 he]
      | _ => simp at hee

theorem current_emitted {l : List (Sig.Ev Nat)} : ∀ {acc : Option (Nat × List (Nat × Nat))} {k cs}, l.foldl Sig.curStep acc = some (k, cs) → .emitted k ∈ l ∨ ∃ cs', acc = some (k, cs') := by
  induction l with
  | nil => intro acc k cs h; exact Or.inr ⟨cs, h⟩
  | cons e l ih =>
    intro acc k cs h
    simp only [List.foldl_cons] at h
    rcases ih h with h | ⟨cs', h⟩
    · exact Or.inl (by simp [h])
    · cases e with
      | emitted a => simp [Sig.curStep] at h; simp [h.1]
      | called t sl a =>
        cases acc with
        | none => simp [Sig.curStep] at h
        | some q => simp only [Sig.curStep, Option.map_some, Option.some.injEq, Prod.mk.injEq] at h; exact Or.inr ⟨q.2, by rw [← h.1]⟩
      | emissionDone => simp [Sig.curStep] at h
      | _ => exact Or.inr ⟨cs', h⟩

/-- A slot is called with the number of an expiry that has been emitted before. -/
theorem call_emitted {as : List Act} {s : State} (hr : run init as = some s) {i : Tm} {tk sl k : Nat} {l1 l2 : List Ev} (hl : s.log = l1 ++ .sg i (.called tk sl k) :: l2) :
    ∃ cs, Sig.current (sgOf i l1) = some (k, cs) := by
  have hI := reach_inv hr
  obtain ⟨bs, hbs⟩ := hI.sr i
  have hs2 : ∀ m, sgOf i (.sg i (.called tk sl k) :: m) = .called tk sl k :: sgOf i m := by intro m; simp [sgOf]
  have := Sig.emission_rules bs _ hbs (sgOf i l1) (.called tk sl k) (sgOf i l2) (by rw [← hI.sl i, hl, sgOf_append, hs2])
  obtain ⟨-, -, cs, hcs, -⟩ := this
  exact ⟨cs, hcs⟩

/-- Slots are called because the timer has expired: call number `k` follows expiry number `k`. -/
theorem call_has_expiry {as : List Act} {s : State} (hr : run init as = some s) {i : Tm} {tk sl k : Nat} {l1 l2 : List Ev} (hl : s.log = l1 ++ .sg i (.called tk sl k) :: l2) :
    ∃ m m' t dl c, l1 = m ++ .tm (.fired i t dl c) :: m' ∧ expiries i m = k := by
  obtain ⟨cs, hcs⟩ := call_emitted hr hl
  rcases current_emitted hcs with hm | ⟨_, h⟩
  · obtain ⟨a, b, rfl⟩ := List.append_of_mem (mem_sgOf.1 hm)
    obtain ⟨m, t, dl, c, rfl, hk⟩ := emission_is_expiry hr (i := i) (k := k) (l1 := a) (l2 := b ++ .sg i (.called tk sl k) :: l2) (by rw [hl]; simp)
    exact ⟨m, .sg i (.emitted k) :: b, t, dl, c, by simp, hk⟩
  · cases h

theorem expiry_later {i : Tm} {l1 l2 m m' : List Ev} {x : Ev} {t dl : Nat} {c : Bool} (h : l1 ++ x :: l2 = m ++ .tm (.fired i t dl c) :: m') (hx : isFired i x = false)
    (hk : expiries i l1 ≤ expiries i m) : ∃ y, l2 = y ++ .tm (.fired i t dl c) :: m' := by
  rcases places h with ⟨-, rfl, -⟩ | ⟨y, -, rfl⟩ | ⟨y, rfl, -⟩
  · simp [isFired] at hx
  · exact ⟨y, rfl⟩
  · rw [expiries_append] at hk
    simp [expiries, isFired] at hk
    omega

theorem not_sets {i : Tm} {l : List Ev} (h : ∀ e ∈ l, ¬ Starts i e) : ∀ e ∈ tmOf l, ¬ Tmr.Sets i e := tmOf_starts h

/-- No slot is called before its time: a call after a start either belongs to an expiry before that start (whose slots were being called when it was made), or the time has passed. -/
theorem not_early {as : List Act} {s : State} (hr : run init as = some s) {i : Tm} {t0 d tk sl k : Nat} {l1 l2 l3 : List Ev}
    (hl : s.log = l1 ++ .tm (.started i t0 d) :: l2 ++ .sg i (.called tk sl k) :: l3) (hno : ∀ e ∈ l2, ¬ Starts i e) :
    k < expiries i l1 ∨ ∃ x y t dl c, l2 = x ++ .tm (.fired i t dl c) :: y ∧ t0 + d ≤ t := by
  have hI := reach_inv hr
  obtain ⟨m, m', t, dl, c, hm, hk⟩ := call_has_expiry hr (l1 := l1 ++ .tm (.started i t0 d) :: l2) (by rw [hl])
  by_cases hlt : k < expiries i l1
  · exact Or.inl hlt
  · right
    obtain ⟨y, hy⟩ := expiry_later hm rfl (by omega)
    refine ⟨y, m', t, dl, c, hy, ?_⟩
    obtain ⟨bs, hbs⟩ := hI.tr
    refine Tmr.not_early_start hbs (i := i) (t0 := t0) (d := d) (t := t) (dl := dl) (c := c) (l1 := tmOf l1) (l2 := tmOf y) (l3 := tmOf (m' ++ .sg i (.called tk sl k) :: l3)) ?_
      (not_sets fun e he => hno e (by rw [hy]; simp [he]))
    rw [← hI.tl, hl, hy]; simp [tmOf]

/-- After `stop` only the slots of an expiry that was before it are called, until the timer is started again. -/
theorem stopped_rest {as : List Act} {s : State} (hr : run init as = some s) {i : Tm} {tk sl k : Nat} {l1 l2 l3 : List Ev}
    (hl : s.log = l1 ++ .tm (.stopped i) :: l2 ++ .sg i (.called tk sl k) :: l3) (hno : ∀ e ∈ l2, ¬ Starts i e) : k < expiries i l1 := by
  have hI := reach_inv hr
  obtain ⟨m, m', t, dl, c, hm, hk⟩ := call_has_expiry hr (l1 := l1 ++ .tm (.stopped i) :: l2) (by rw [hl])
  refine Nat.lt_of_not_le fun hle => ?_
  obtain ⟨y, hy⟩ := expiry_later hm rfl (by omega)
  obtain ⟨bs, hbs⟩ := hI.tr
  obtain ⟨e, he, hse⟩ := Tmr.stopped_silent hbs (i := i) (t := t) (dl := dl) (c := c) (l1 := tmOf l1) (l2 := tmOf y) (l3 := tmOf (m' ++ .sg i (.called tk sl k) :: l3))
    (by rw [← hI.tl, hl, hy]; simp [tmOf])
  exact not_sets (fun e he => hno e (by rw [hy]; simp [he])) e he hse

/-- After `stop` no slot is called until the timer is started again, unless `stop` is called by a slot. (Missing: then the slots that are left of this emission are called.) -/
theorem stopped_silent_partial {as : List Act} {s : State} (hr : run init as = some s) {i : Tm} {l1 l2 : List Ev} (hl : s.log = l1 ++ .tm (.stopped i) :: l2)
    (hq : Quiet i l1) (hno : ∀ e ∈ l2, ¬ Starts i e) : ∀ tk sl k, .sg i (.called tk sl k) ∉ l2 := by
  intro tk sl k hm
  obtain ⟨a, b, rfl⟩ := List.append_of_mem hm
  have hl' : s.log = l1 ++ .tm (.stopped i) :: a ++ .sg i (.called tk sl k) :: b := by rw [hl]; simp
  have hlt := stopped_rest hr hl' fun e he => hno e (by simp [he])
  obtain ⟨cs, hcs⟩ := call_emitted hr hl'
  have hs : sgOf i (l1 ++ .tm (.stopped i) :: a) = sgOf i l1 ++ sgOf i a := by rw [sgOf_append]; simp [sgOf]
  rw [hs, Sig.current_append, hq] at hcs
  rcases current_emitted hcs with hm | ⟨_, h⟩
  · obtain ⟨x, y, rfl⟩ := List.append_of_mem (mem_sgOf.1 hm)
    obtain ⟨m, t, dl, c, hm', hk⟩ := emission_is_expiry hr (i := i) (k := k) (l1 := l1 ++ .tm (.stopped i) :: x) (l2 := y ++ .sg i (.called tk sl k) :: b) (by rw [hl]; simp)
    have hlast := congrArg List.getLast? hm'
    rw [List.getLast?_append, List.getLast?_append] at hlast
    have hin : .tm (.fired i t dl c) ∈ Ev.tm (.stopped i) :: x := by
      refine List.mem_of_getLast? ?_
      cases hg : (Ev.tm (.stopped i) :: x).getLast? with
      | none => simp at hg
      | some e => simpa [hg] using hlast
    rcases List.mem_cons.1 hin with h | hx
    · cases h
    · have hI := reach_inv hr
      obtain ⟨u, v, rfl⟩ := List.append_of_mem hx
      obtain ⟨bs, hbs⟩ := hI.tr
      obtain ⟨e, he, hse⟩ := Tmr.stopped_silent hbs (i := i) (t := t) (dl := dl) (c := c) (l1 := tmOf l1) (l2 := tmOf u)
        (l3 := tmOf (v ++ .sg i (.emitted k) :: y ++ .sg i (.called tk sl k) :: b)) (by rw [← hI.tl, hl]; simp [tmOf])
      exact not_sets (fun e he => hno e (by simp [he])) e he hse
  · cases h

/-- Once the object is destroyed its timer does not expire and no slot is called. -/
theorem destroyed_silent {as : List Act} {s : State} (hr : run init as = some s) {i : Tm} {l1 l2 : List Ev} (hl : s.log = l1 ++ .destroyed i :: l2) :
    (∀ t dl c, .tm (.fired i t dl c) ∉ l2) ∧ ∀ tk sl k, .sg i (.called tk sl k) ∉ l2 := by
  have hI := reach_inv hr
  constructor
  · intro t dl c hm
    obtain ⟨a, b, rfl⟩ := List.append_of_mem hm
    have := hI.rules.all (l1 ++ .destroyed i :: a) (.tm (.fired i t dl c)) b (by rw [hl]; simp)
    simp [Rule] at this
  · intro tk sl k hm
    obtain ⟨a, b, rfl⟩ := List.append_of_mem hm
    have := hI.rules.all (l1 ++ .destroyed i :: a) (.sg i (.called tk sl k)) b (by rw [hl]; simp)
    simp [Rule] at this

theorem disconnect_ub (g : Sig.State Nat) (x : Nat) : (Sig.disconnect g x).1.ub = g.ub := by
  unfold Sig.disconnect
  split
  · rename_i sl _
    have : (Sig.remove g sl).1.ub = g.ub := by
      unfold Sig.remove; repeat' split
      all_goals rfl
    split
    · split
      · rename_i hx; rw [hx] at this; exact this
      · rename_i hx; rw [hx] at this; exact this
    · rfl
  · rfl

theorem reconnect_ub (g : Sig.State Nat) (x : Nat) : (Sig.reconnect g x).1.ub = g.ub := by
  unfold Sig.reconnect Sig.addUnique Sig.add
  repeat' split
  all_goals first | rfl | (rename_i hx; split at hx <;> cases hx <;> rfl) | skip

/-- A signal alone comes to undefined behaviour during an emission only. -/
theorem sig_ub {g g' : Sig.State Nat} {a : Sig.Act Nat} (h : Sig.step g a = some g') (hu : g'.ub = true) : g.emission ≠ none := by
  intro he
  simp only [Sig.step] at h
  split at h
  · cases h
  rename_i hg
  have hg : g.ub = false := by simpa using hg
  cases a <;> simp only [Sig.body, he] at h
  case connect => split at h <;> cases h; simp [Sig.add, hg] at hu
  case connectAware => split at h <;> cases h; simp [Sig.add, hg] at hu
  case keep => cases h
  case disconnect x => split at h <;> cases h; rw [disconnect_ub, hg] at hu; cases hu
  case reconnect x => split at h <;> cases h; rw [reconnect_ub, hg] at hu; cases hu
  case drop x => split at h <;> cases h; rw [Sig.dropHandle_ub _ _ he hg] at hu; cases hu
  case scopeEnd x =>
    split at h <;> cases h
    rw [Sig.dropHandle_ub] at hu
    · cases hu
    · split
      · rw [(disconnect_keeps g x).2, he]
      · exact he
    · split
      · rw [disconnect_ub, hg]
      · exact hg
  case clear => split at h <;> cases h; simp [hg] at hu
  case emit k =>
    split at h
    · split at h <;> cases h <;> simp [hg] at hu
    · cases h
  case iter => cases h
  case ret => cases h
  case destroy => split at h <;> cases h; simp [hg] at hu

theorem not_quiet {s : State} (h : Inv s) {i : Tm} (he : (s.sig i).emission ≠ none) : ¬ Quiet i s.log := by
  intro hq
  obtain ⟨bs, hbs⟩ := h.sr i
  have := (Sig.inv_run bs _ hbs).cur
  rw [← h.sl i, hq] at this
  cases hx : (s.sig i).emission with
  | none => exact he hx
  | some e => rw [hx] at this; cases this

theorem signal_ub {s s' : State} {i : Tm} {a : Sig.Act Nat} (h : Inv s) (hu : s.ub = false) (hs : onSignal s i a = some s') (hu' : s'.ub = true) : ¬ Quiet i s.log := by
  obtain ⟨g, b, hg, -, -, rfl⟩ := onSignal_eq hs
  simp only [hu, Bool.false_or] at hu'
  exact not_quiet h (sig_ub hg hu')

theorem timer_ub {s s' : State} {a : Tmr.Act} (hu : s.ub = false) (hs : onTimer s a = some s') (hu' : s'.ub = true) : s'.t.ub = true := by
  obtain ⟨t', b, -, -, -, rfl⟩ := onTimer_eq hs
  simpa [hu] using hu'

/-- Undefined behaviour is the timers' own (C62: `restart` without `start`, timers moved between managers), or comes from within a slot: a slot (or what it calls) ends, disconnects, destroys the object or
lets its timer expire again, while the slots of this very object are being called. -/
theorem misuse {as : List Act} {s s' : State} {a : Act} (hr : run init as = some s) (hs : step s a = some s') (hu' : s'.ub = true) :
    s'.t.ub = true ∨ ∃ i, ¬ Quiet i s.log ∧ (a = .ret ∨ a = .iter ∨ (∃ b, a = .conn i b) ∨ (∃ r, a = .destroy i r) ∨
      ∃ r t dl c, a = .fire r ∧ .tm (.fired i t dl c) ∈ s'.log.drop s.log.length) := by
  obtain ⟨h, hgo⟩ := reach ⟨inv_init, by intro i h; simp [init, Sig.init] at h⟩ hr
  simp only [step] at hs
  split at hs
  · cases hs
  rename_i hu
  have hu : s.ub = false := by simpa using hu
  cases a <;> simp only at hs
  case tick => exact Or.inl (timer_ub hu hs hu')
  case post => exact Or.inl (timer_ub hu hs hu')
  case stopProc => exact Or.inl (timer_ub hu hs hu')
  case reuse => exact Or.inl (timer_ub hu hs hu')
  case look => exact Or.inl (timer_ub hu hs hu')
  case waitOut => exact Or.inl (timer_ub hu hs hu')
  case waitJob =>
    simp only [Option.map_eq_some_iff] at hs
    obtain ⟨s1, h1, rfl⟩ := hs
    have hx : s1.t.ub = true := timer_ub hu h1 hu'
    exact Or.inl hx
  case take =>
    split at hs
    · simp only [Option.map_eq_some_iff] at hs
      obtain ⟨s1, h1, rfl⟩ := hs
      have hx : s1.t.ub = true := timer_ub hu h1 hu'
      exact Or.inl hx
    · cases hs
  case fire r =>
    simp only [Option.bind_eq_some_iff] at hs
    obtain ⟨s1, h1, h2⟩ := hs
    by_cases hu1 : s1.ub = true
    · refine Or.inl ?_
      have ht := timer_ub hu h1 hu1
      have : s'.t = s1.t := by
        simp only [afterFire] at h2
        split at h2
        · cases h2; rfl
        · simp only [emitNow] at h2
          split at h2
          · simp only [Option.map_eq_some_iff] at h2
            obtain ⟨s2, hs2, rfl⟩ := h2
            obtain ⟨g, b, -, -, -, rfl⟩ := onSignal_eq hs2
            rfl
          · cases h2; rfl
      rw [this]; exact ht
    · have hu1 : s1.ub = false := by simpa using hu1
      have h1' := h1
      obtain ⟨t', b, ht, hb, ha, rfl⟩ := onTimer_eq h1
      rcases ha with rfl | ⟨i, t, dl, c, p, rfl, hp⟩
      · simp only [afterFire, expiredNow, news, hb, List.append_nil, List.drop_length, List.getLast?_nil] at h2
        cases h2
        rw [hu1] at hu'; cases hu'
      · simp only [afterFire, expiredNow, news, hb, List.drop_left, List.getLast?_append, List.getLast?_singleton, Option.some_or] at h2
        simp only [emitNow] at h2
        split at h2
        · simp only [Option.map_eq_some_iff] at h2
          obtain ⟨s2, hs2, rfl⟩ := h2
          obtain ⟨g, b2, hg, hgl, -, rfl⟩ := onSignal_eq hs2
          simp only at hu1 hu'
          rw [hu1, Bool.false_or] at hu'
          refine Or.inr ⟨i, not_quiet h (sig_ub hg hu'), Or.inr (Or.inr (Or.inr (Or.inr ⟨r, t, dl, c, rfl, ?_⟩)))⟩
          simp
        · rename_i hal
          exact absurd (by simpa using hgo i (by simpa using hal)) (fired_alive h ht hb hp)
  case timer o r =>
    split at hs
    · exact Or.inl (timer_ub hu hs hu')
    · cases hs
  case conn i a =>
    split at hs
    · exact Or.inr ⟨i, signal_ub h hu hs hu', Or.inr (Or.inr (Or.inl ⟨a, rfl⟩))⟩
    · cases hs
  case iter =>
    split at hs
    · rename_i i _ _ _; exact Or.inr ⟨i, signal_ub h hu hs hu', Or.inr (Or.inl rfl)⟩
    · cases hs
  case ret =>
    split at hs
    · simp only [Option.map_eq_some_iff] at hs
      obtain ⟨s1, h1, rfl⟩ := hs
      have hx : s1.t.ub = true := timer_ub hu h1 hu'
      exact Or.inl hx
    · simp only [slotReturns] at hs
      split at hs
      · rename_i i _ _ _ _; exact Or.inr ⟨i, signal_ub h hu hs hu', Or.inl rfl⟩
      · split at hs
        · cases hs
        · simp only [Option.map_eq_some_iff] at hs
          obtain ⟨s1, h1, rfl⟩ := hs
          have hx : s1.t.ub = true := timer_ub hu h1 hu'
          exact Or.inl hx
    · cases hs
  case destroy i r =>
    split at hs
    · simp only [Option.bind_eq_some_iff] at hs
      obtain ⟨s1, h1, h2⟩ := hs
      simp only [destroySignal] at h2
      split at h2
      · cases h2
        exact Or.inl (timer_ub hu h1 hu')
      · rename_i hu1
        have hu1 : s1.ub = false := by simpa using hu1
        simp only [Option.map_eq_some_iff] at h2
        obtain ⟨s2, h2, rfl⟩ := h2
        obtain ⟨t', b, ht, hb, ha, rfl⟩ := onTimer_eq h1
        obtain ⟨g, b2, hg, hgl, -, rfl⟩ := onSignal_eq h2
        simp only at hu1 hu'
        rw [hu1, Bool.false_or] at hu'
        exact Or.inr ⟨i, not_quiet h (sig_ub hg hu'), Or.inr (Or.inr (Or.inr (Or.inl ⟨r, rfl⟩)))⟩
    · cases hs

/-! ### Concrete histories -/

/-- two slots are connected and the timer started; it expires; the first slot is called -/
def demo : List Act := [.post, .take, .conn 0 .connect, .conn 0 .connect, .timer (.start 0 5) [0], .ret, .take, .look, .tick 6, .waitOut, .fire [], .iter]

theorem of_any {as : List Act} {p : State → Bool} (h : (run init as).any p = true) : ∃ s, run init as = some s ∧ p s = true := by
  cases hx : run init as with
  | none => simp [hx] at h
  | some s => exact ⟨s, rfl, by simpa [hx] using h⟩

/-- `expiry_calls`, `not_early`: both slots are called, once each. -/
example : ∃ s, run init (demo ++ [.ret, .iter, .ret, .iter, .ret]) = some s ∧
    s.log = [.sg 0 (.added 0 0), .sg 0 (.added 1 1), .tm (.started 0 0 5), .tm (.picked 0), .tm (.fired 0 6 5 false), .sg 0 (.emitted 0), .sg 0 (.called 0 0 0), .sg 0 (.returned 0),
      .sg 0 (.called 1 1 0), .sg 0 (.returned 1), .sg 0 .emissionDone] := by
  obtain ⟨s, hs, h⟩ := of_any (as := demo ++ [.ret, .iter, .ret, .iter, .ret]) (p := fun s => s.log == [.sg 0 (.added 0 0), .sg 0 (.added 1 1), .tm (.started 0 0 5), .tm (.picked 0), .tm (.fired 0 6 5 false), .sg 0 (.emitted 0), .sg 0 (.called 0 0 0), .sg 0 (.returned 0),
      .sg 0 (.called 1 1 0), .sg 0 (.returned 1), .sg 0 .emissionDone]) (by decide +kernel)
  exact ⟨s, hs, by simpa using h⟩

/-- Refuted: after `stop` has returned no slot is called. A slot stops the timer; the other slot is called all the same. -/
theorem stop_in_slot : ∃ s l1 l2, run init (demo ++ [.timer (.stop 0) [], .ret, .iter]) = some s ∧ s.ub = false ∧
    s.log = l1 ++ .tm (.stopped 0) :: l2 ∧ .sg 0 (.called 1 1 0) ∈ l2 ∧ ∀ e ∈ l2, ¬ Starts 0 e := by
  obtain ⟨s, hs, h⟩ := of_any (as := demo ++ [.timer (.stop 0) [], .ret, .iter]) (p := fun s => !s.ub && s.log == [.sg 0 (.added 0 0), .sg 0 (.added 1 1), .tm (.started 0 0 5), .tm (.picked 0),
      .tm (.fired 0 6 5 false), .sg 0 (.emitted 0), .sg 0 (.called 0 0 0)] ++ .tm (.stopped 0) :: [.sg 0 (.returned 0), .sg 0 (.called 1 1 0)]) (by decide +kernel)
  simp only [Bool.and_eq_true, beq_iff_eq, Bool.not_eq_true'] at h
  exact ⟨s, _, _, hs, h.1, h.2, by simp, by simp [Starts]⟩

/-- Refuted: a slot may destroy the object it is called by. -/
theorem destroy_in_slot : ∃ s, run init (demo ++ [.destroy 0 []]) = some s ∧ s.ub = true := by
  obtain ⟨s, hs, h⟩ := of_any (as := demo ++ [.destroy 0 []]) (p := fun s => s.ub) (by decide +kernel)
  exact ⟨s, hs, h⟩

/-- Refuted: a slot may run the processor's loop. The timer is cyclic and expires again: undefined behaviour. -/
theorem loop_in_slot : ∃ s, run init [.post, .take, .conn 0 .connect, .timer (.setCyclic 0 true) [], .timer (.start 0 5) [0], .ret, .take, .look, .tick 6, .waitOut, .fire [0], .iter,
    .timer (.start 1 1) [1, 0], .take, .look, .tick 20, .waitOut, .fire [0], .ret, .look, .fire [0]] = some s ∧ s.ub = true := by
  obtain ⟨s, hs, h⟩ := of_any (as := [.post, .take, .conn 0 .connect, .timer (.setCyclic 0 true) [], .timer (.start 0 5) [0], .ret, .take, .look, .tick 6, .waitOut, .fire [0], .iter,
    .timer (.start 1 1) [1, 0], .take, .look, .tick 20, .waitOut, .fire [0], .ret, .look, .fire [0]]) (p := fun s => s.ub && !s.t.ub) (by decide +kernel)
  exact ⟨s, hs, by simp_all⟩

/-- `destroyed_silent`: destroyed by a job, before it expires; the processor goes on. -/
example : ∃ s, run init [.post, .take, .conn 0 .connect, .timer (.start 0 5) [0], .destroy 0 [], .ret, .take, .tick 9, .look] = some s ∧ s.ub = false ∧
    s.log = [.sg 0 (.added 0 0), .tm (.started 0 0 5), .tm (.stopped 0), .sg 0 (.removed 0 0), .destroyed 0] := by
  obtain ⟨s, hs, h⟩ := of_any (as := [.post, .take, .conn 0 .connect, .timer (.start 0 5) [0], .destroy 0 [], .ret, .take, .tick 9, .look]) (p := fun s => !s.ub &&
    s.log == [.sg 0 (.added 0 0), .tm (.started 0 0 5), .tm (.stopped 0), .sg 0 (.removed 0 0), .destroyed 0]) (by decide +kernel)
  simp only [Bool.and_eq_true, beq_iff_eq, Bool.not_eq_true'] at h
  exact ⟨s, hs, h.1, h.2⟩

end Maf.Stm
