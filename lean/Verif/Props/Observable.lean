import Verif.Lemmas.Observable
/-
C26, C27: observables.
-/
set_option linter.unusedSectionVars false
namespace Maf.Obs
open Maf
variable {X : Type} [DecidableEq X]

/-! ### C26 -/

theorem change_spec {s s' : State X} {v : List X} (hc : change s v = some s') :
    s'.val = v ∧ s'.rcv = s.rcv ∧ s'.refs = s.refs ∧ s'.pending = s.pending ∧ Sig.step s.sig (.emit v) = some s'.sig := by
  simp only [change, Option.map_eq_some_iff] at hc
  obtain ⟨sg, h1, rfl⟩ := hc
  exact ⟨rfl, rfl, rfl, rfl, h1⟩

/-- Setting the value it has already does nothing. -/
theorem set_same (s s' : State X) (hs : step s (.set s.val) = some s') : s' = s := by
  simp only [step] at hs
  split at hs
  · simpa using hs.symm
  · cases hs

/-- After `set(v)`, `get()` returns `v`; the same for sub-states. -/
theorem set_get (s s' : State X) (vs : List X) (hs : step s (.set vs) = some s') : s'.val = vs := by
  simp only [step] at hs
  split at hs
  · split at hs
    · exact (change_spec hs).1
    · next h => cases hs; simp only [ne_eq, Decidable.not_not] at h; exact h.symm
  · cases hs

theorem assign_getElem? (ivs : List (Nat × X)) : ∀ (val : List X) (j : Nat), (ivs.map Prod.fst).Nodup →
    (assign val ivs)[j]? = match ivs.find? (fun p => p.1 == j) with
      | some p => if j < val.length then some p.2 else none
      | none => val[j]? := by
  induction ivs with
  | nil => intro val j _; rfl
  | cons p ivs ih =>
    intro val j hnd
    rcases p with ⟨i, x⟩
    simp only [List.map_cons, List.nodup_cons] at hnd
    rw [assign, ih _ j hnd.2]
    by_cases hij : i = j
    · subst hij
      have : ivs.find? (fun p => p.1 == i) = none := by
        rw [List.find?_eq_none]
        rintro ⟨a, b⟩ hm
        simp only [beq_iff_eq]
        intro e; subst e
        exact hnd.1 (List.mem_map.2 ⟨_, hm, rfl⟩)
      rw [this, List.find?_cons_of_pos (by simp)]
      simp only [List.getElem?_set_self']
      by_cases hl : i < val.length
      · simp [hl]
      · simp [hl]
    · rw [List.find?_cons_of_neg (by simpa using hij), List.getElem?_set_ne hij]
      cases ivs.find? (fun p => p.1 == j) <;> simp

/-- Different indices in range: some named sub-state differs exactly when the new state
differs from the old one. -/
theorem differs_iff (val : List X) (ivs : List (Nat × X)) (hnd : (ivs.map Prod.fst).Nodup)
    (hr : ∀ p ∈ ivs, p.1 < val.length) : differs val ivs = true ↔ assign val ivs ≠ val := by
  constructor
  · intro h heq
    simp only [differs, List.any_eq_true, decide_eq_true_eq] at h
    obtain ⟨p, hp, hne⟩ := h
    have h1 := assign_getElem? ivs val p.1 hnd
    rw [heq] at h1
    have hf : ivs.find? (fun q => q.1 == p.1) = some p := by
      clear hne h1 heq hr
      induction ivs with
      | nil => cases hp
      | cons q ivs ih =>
        simp only [List.map_cons, List.nodup_cons] at hnd
        rcases List.mem_cons.1 hp with rfl | hp'
        · simp
        · rw [List.find?_cons_of_neg, ih hnd.2 hp']
          simp only [beq_iff_eq]
          intro e
          exact hnd.1 (List.mem_map.2 ⟨p, hp', e.symm⟩)
    rw [hf] at h1
    simp only [hr p hp, if_true] at h1
    exact hne h1
  · intro hne
    cases hd : differs val ivs with
    | true => rfl
    | false =>
      exfalso; apply hne
      simp only [differs, List.any_eq_false, decide_eq_true_eq, Decidable.not_not] at hd
      clear hne hnd hr
      induction ivs generalizing val with
      | nil => rfl
      | cons p ivs ih =>
        rcases p with ⟨i, x⟩
        have h0 := hd (i, x) (by simp)
        have : val.set i x = val := by
          obtain ⟨hl, hg⟩ := List.getElem?_eq_some_iff.1 h0
          simp only at hg
          rw [← hg]; exact List.set_getElem_self hl
        rw [assign, this]
        exact ih val fun p hp => hd p (List.mem_cons_of_mem _ hp)

/-- After `set<i...>(v...)`, the named sub-states have the new values, the others are as
before. -/
theorem setAt_get (s s' : State X) (ivs : List (Nat × X)) (hnd : (ivs.map Prod.fst).Nodup)
    (hr : ∀ p ∈ ivs, p.1 < s.val.length) (hs : step s (.setAt ivs) = some s') : s'.val = assign s.val ivs ∧
    (assign s.val ivs = s.val → s' = s) := by
  simp only [step] at hs
  have hd := differs_iff s.val ivs hnd hr
  split at hs
  · split at hs
    · next h =>
      exact ⟨(change_spec hs).1, fun e => absurd e (hd.1 h)⟩
    · next h =>
      cases hs
      have := (not_congr hd).1 h
      simp only [ne_eq, Decidable.not_not] at this
      exact ⟨this.symm, fun _ => rfl⟩
  · cases hs

/-- Silent operations reach nobody. -/
theorem silent_set (s s' : State X) (vs : List X) (hs : step s (.silentSet vs) = some s') :
    s'.val = vs ∧ s'.rcv = s.rcv ∧ s'.sig = s.sig := by
  simp only [step] at hs
  split at hs <;> cases hs
  exact ⟨rfl, rfl, rfl⟩

/-- `a` is an assignment that changes the value from `old` to `new`. -/
inductive Changes (s : State X) : Act X → List X → Prop where
  | set {vs} : vs ≠ s.val → Changes s (.set vs) vs
  | setAt {ivs} : differs s.val ivs = true → Changes s (.setAt ivs) (assign s.val ivs)
  | close {old rest} : s.refs = old :: rest → old ≠ s.val → Changes s .refClose s.val

/-- Observers are only ever notified because of a change, and then of the new value. -/
theorem notified_only_on_change (s s' : State X) (a : Act X) (hs : step s a = some s') (new : List (Sig.Ev (List X)))
    (hl : s'.sig.log = s.sig.log ++ new) (v : List X) (hv : Sig.Ev.emitted v ∈ new) : Changes s a v ∧ s'.val = v := by
  have key : ∀ b, Sig.step s.sig b = some s'.sig → b = .emit v := by
    intro b hb
    obtain ⟨n2, h2, _, h3⟩ := Sig.log_step hb
    rw [h2] at hl
    have := List.append_cancel_left hl
    subst this
    exact h3 v hv
  have hsame : s'.sig ≠ s.sig := by
    intro e
    rw [e] at hl
    have : new = [] := by simpa using hl
    rw [this] at hv; cases hv
  cases a <;> simp only [step] at hs
  case set vs =>
    split at hs
    · split at hs
      · next hne =>
        have hc := change_spec hs
        have := key _ hc.2.2.2.2
        cases this
        exact ⟨.set hne, hc.1⟩
      · cases hs; exact absurd rfl hsame
    · cases hs
  case setAt ivs =>
    split at hs
    · split at hs
      · next hne =>
        have hc := change_spec hs
        have := key _ hc.2.2.2.2
        cases this
        exact ⟨.setAt hne, hc.1⟩
      · cases hs; exact absurd rfl hsame
    · cases hs
  case silentSet vs =>
    split at hs <;> cases hs
    exact absurd rfl hsame
  case refOpen =>
    split at hs <;> cases hs
    exact absurd rfl hsame
  case refWrite vs =>
    split at hs <;> cases hs
    exact absurd rfl hsame
  case refClose =>
    split at hs
    · split at hs
      · cases hs
      · next old rest hrefs =>
        split at hs
        · next hne =>
          have hc := change_spec hs
          have := key _ hc.2.2.2.2
          cases this
          exact ⟨.close hrefs hne, hc.1⟩
        · cases hs; exact absurd rfl hsame
    · cases hs
  case connect =>
    simp only [Option.map_eq_some_iff] at hs
    obtain ⟨sg, h1, rfl⟩ := hs
    cases key _ h1
  case notifyOne sl =>
    split at hs <;> cases hs
    exact absurd rfl hsame
  case silentlyConnect =>
    simp only [Option.map_eq_some_iff] at hs
    obtain ⟨sg, h1, rfl⟩ := hs
    cases key _ h1
  case sig b =>
    split at hs
    · next ha =>
      simp only [Option.map_eq_some_iff] at hs
      obtain ⟨sg, h1, rfl⟩ := hs
      have := key _ h1
      subst this
      cases ha
    · cases hs

theorem revInd {α : Type} {P : List α → Prop} (l : List α) (nil : P []) (append_singleton : ∀ l a, P l → P (l ++ [a])) : P l := by
  have : ∀ n (l : List α), l.length = n → P l := by
    intro n
    induction n with
    | zero => intro l hl; rw [List.length_eq_zero_iff.1 hl]; exact nil
    | succ n ih =>
      intro l hl
      rcases List.eq_nil_or_concat l with rfl | ⟨l', x, rfl⟩
      · cases hl
      · rw [List.concat_eq_append]
        exact append_singleton _ _ (ih l' (by simpa using hl))
  exact this _ l rfl

omit [DecidableEq X] in
theorem within_of_current (l1 : List (Sig.Ev (List X))) (v : List X) (tail : List (Sig.Ev (List X)))
    (hev : ∀ l e m, l1 ++ .emitted v :: tail = l ++ e :: m → Sig.EventOk l e)
    (hcur : Sig.current (l1 ++ .emitted v :: tail) = none) :
    ∃ l2 m, tail = l2 ++ .emissionDone :: m ∧ Sig.WithinEmission l2 := by
  -- split the tail at the first end of an emission
  have hsplit : ∀ tail : List (Sig.Ev (List X)), (∃ l2 m, tail = l2 ++ .emissionDone :: m ∧ ∀ e ∈ l2, e ≠ .emissionDone) ∨
      ∀ e ∈ tail, e ≠ Sig.Ev.emissionDone := by
    intro tail
    induction tail with
    | nil => right; simp
    | cons e tl ih =>
      by_cases he : e = Sig.Ev.emissionDone
      · left; exact ⟨[], tl, by simp [he], by simp⟩
      · rcases ih with ⟨l2, m, rfl, h⟩ | h
        · left
          refine ⟨e :: l2, m, rfl, ?_⟩
          intro x hx
          rcases List.mem_cons.1 hx with rfl | hx
          · exact he
          · exact h x hx
        · right
          intro x hx
          rcases List.mem_cons.1 hx with rfl | hx
          · exact he
          · exact h x hx
  have noEmit : ∀ l2 m, tail = l2 ++ m → (∀ e ∈ l2, e ≠ Sig.Ev.emissionDone) → Sig.WithinEmission l2 ∧
      ∃ cs, l2.foldl Sig.curStep (some (v, [])) = some (v, cs) := by
    intro l2
    induction l2 using revInd with
    | nil =>
      intro m _ _
      refine ⟨?_, [], rfl⟩
      intro e he
      cases he
    | append_singleton l2 e ih =>
      intro m ht hno
      obtain ⟨hw, cs, hcs⟩ := ih (e :: m) (by rw [ht]; simp) (fun x hx => hno x (by simp [hx]))
      have hev' := hev (l1 ++ .emitted v :: l2) e m (by rw [ht]; simp)
      have hne : ∀ a, e ≠ .emitted a := by
        intro a ha; subst ha
        have : Sig.current (l1 ++ .emitted v :: l2) = none := hev'
        rw [Sig.current_append, List.foldl_cons] at this
        simp only [Sig.curStep] at this
        rw [hcs] at this; cases this
      have hne2 : e ≠ .emissionDone := hno e (by simp)
      refine ⟨?_, ?_⟩
      · intro x hx
        rcases List.mem_append.1 hx with hx | hx
        · exact hw x hx
        · simp at hx; subst hx; exact ⟨hne, hne2⟩
      · rw [List.foldl_append, hcs]
        cases e with
        | emitted a => exact absurd rfl (hne a)
        | emissionDone => exact absurd rfl hne2
        | called t s a => exact ⟨_, rfl⟩
        | added t s => exact ⟨_, rfl⟩
        | removed t s => exact ⟨_, rfl⟩
        | returned t => exact ⟨_, rfl⟩
  rcases hsplit tail with ⟨l2, m, ht, hno⟩ | hno
  · exact ⟨l2, m, ht, (noEmit l2 _ ht hno).1⟩
  · exfalso
    obtain ⟨_, cs, hcs⟩ := noEmit tail [] (by simp) hno
    rw [Sig.current_append, List.foldl_cons] at hcur
    simp only [Sig.curStep] at hcur
    rw [hcs] at hcur; cases hcur

theorem changes_step {s s1 : State X} {a : Act X} {v : List X} (hc : Changes s a v) (hs : step s a = some s1) :
    s1.val = v ∧ Sig.step s.sig (.emit v) = some s1.sig := by
  cases hc with
  | set hne =>
    simp only [step] at hs
    split at hs
    · have := change_spec hs; exact ⟨this.1, this.2.2.2.2⟩
    · cases hs
  | setAt hd =>
    simp only [step] at hs
    split at hs
    · have := change_spec hs; exact ⟨this.1, this.2.2.2.2⟩
    · cases hs
  | close hr hne =>
    simp only [step, hr] at hs
    split at hs
    · have := change_spec hs; exact ⟨this.1, this.2.2.2.2⟩
    · cases hs

theorem run_append (as bs : List (Act X)) (s0 s s2 : State X) (h1 : run s0 as = some s) (h2 : run s bs = some s2) :
    run s0 (as ++ bs) = some s2 := by
  induction as generalizing s0 with
  | nil => cases h1; exact h2
  | cons a as ih =>
    simp only [run, List.cons_append] at h1 ⊢
    cases hst : step s0 a with
    | none => simp [hst] at h1
    | some sx => simp only [hst, Option.bind_some] at h1 ⊢; exact ih sx h1

/-- C26: an assignment (`set`, `set<i...>`, or through a `mutable_()` reference) that changes
the value, made when no emission is in progress: when its emission is over (whatever the
observers did in the meantime), every observer that was connected at the assignment and has
not been disconnected before the end of the emission has been called with the new value; each
connection once, in connection order, with nothing else. -/
theorem change_notifies_each_once (v0 : List X) (acts acts2 : List (Act X)) (s s1 s2 : State X)
    (hr : run (init v0) acts = some s) (a : Act X) (vs : List X) (hch : Changes s a vs) (hs : step s a = some s1)
    (he : s.sig.emission = none) (hr2 : run s1 acts2 = some s2) (hend : s2.sig.emission = none) :
    s1.val = vs ∧
    ∃ l2 m, s2.sig.log = s.sig.log ++ l2 ++ m ∧
      ((Sig.callsIn l2).map fun c => c.1).Pairwise (· < ·) ∧
      (∀ c ∈ Sig.callsIn l2, c.2.2 = vs) ∧
      (∀ t sl, (t, sl) ∈ Sig.connections s.sig.log → (∀ s', Sig.Ev.removed t s' ∉ l2) →
        (t, sl, vs) ∈ Sig.callsIn l2) := by
  obtain ⟨hval, hemit⟩ := changes_step hch hs
  refine ⟨hval, ?_⟩
  obtain ⟨as, has⟩ := sig_reach v0 acts s hr
  have hi := Sig.inv_run as _ has
  obtain ⟨new, hnew⟩ := log_run acts2 s1 s2 hr2
  rcases emit_cases hemit with ⟨h1, h2⟩ | ⟨_, h2, _⟩ | ⟨h1, _, h2⟩
  · refine ⟨[], new, by rw [hnew, h2]; simp, by simp [Sig.callsIn], by simp [Sig.callsIn], ?_⟩
    intro t sl hm
    rw [hi.conns, h1] at hm
    cases hm
  · rw [he] at h2; cases h2
  · have hrun2 : run (init v0) (acts ++ a :: acts2) = some s2 :=
      run_append acts (a :: acts2) _ s s2 hr (by simp only [run, hs, Option.bind_some]; exact hr2)
    obtain ⟨as2, has2⟩ := sig_reach v0 _ s2 hrun2
    have hi2 := Sig.inv_run as2 _ has2
    have hlog : s2.sig.log = s.sig.log ++ .emitted vs :: new := by
      rw [hnew, h2]; simp
    have hcur : Sig.current s2.sig.log = none := by rw [hi2.cur, hend]; rfl
    obtain ⟨l2, m, ht, hw⟩ := within_of_current s.sig.log vs new (by rw [← hlog]; exact hi2.events) (by rw [← hlog]; exact hcur)
    obtain ⟨e1, e2, _, e4⟩ := Sig.emission_exact as2 _ has2 s.sig.log l2 m vs (by rw [hlog, ht]; simp) hw
    have hcalls : Sig.callsIn (.emitted vs :: l2 ++ [.emissionDone]) = Sig.callsIn l2 := by
      rw [Sig.callsIn_append, show (Sig.Ev.emitted vs :: l2) = [.emitted vs] ++ l2 from rfl, Sig.callsIn_append]
      simp [Sig.callsIn]
    refine ⟨.emitted vs :: l2 ++ [.emissionDone], m, by rw [hlog, ht]; simp, by rw [hcalls]; exact e1,
      by rw [hcalls]; exact e2, ?_⟩
    intro t sl hm hno
    rw [hcalls]
    refine e4 t sl hm fun s' hs' => hno s' ?_
    simp [hs']

/-- What `notifyOne` hands to the slot. -/
def direct (s : State X) : Act X → List (Sig.SlotId × List X)
  | .notifyOne sl => if Sig.has s.sig sl then [(sl, s.val)] else []
  | _ => []

/-- What an observer receives is what the calls of the emissions carry, and what `connect`
hands to it. -/
theorem received_exactly (s s' : State X) (a : Act X) (hs : step s a = some s') :
    ∃ new, s'.sig.log = s.sig.log ++ new ∧
      s'.rcv = s.rcv ++ (Sig.callsIn new).map (fun c => (c.2.1, c.2.2)) ++ direct s a := by
  have hch : ∀ (x : State X) v, x.sig = s.sig → x.rcv = s.rcv → change x v = some s' →
      ∃ new, s'.sig.log = s.sig.log ++ new ∧ s'.rcv = s.rcv ++ (Sig.callsIn new).map (fun c => (c.2.1, c.2.2)) ++ [] := by
    intro x v hx hx2 hc
    have h := change_spec hc
    rw [hx, hx2] at h
    obtain ⟨new, h1, h2, _⟩ := Sig.log_step h.2.2.2.2
    exact ⟨new, h1, by rw [h2, h.2.1]; simp [Sig.calledBy]⟩
  cases a <;> simp only [step] at hs
  case set vs =>
    split at hs
    · split at hs
      · exact hch s _ rfl rfl hs
      · cases hs; exact ⟨[], by simp, by simp [Sig.callsIn, direct]⟩
    · cases hs
  case setAt ivs =>
    split at hs
    · split at hs
      · exact hch s _ rfl rfl hs
      · cases hs; exact ⟨[], by simp, by simp [Sig.callsIn, direct]⟩
    · cases hs
  case silentSet vs =>
    split at hs <;> cases hs
    exact ⟨[], by simp, by simp [Sig.callsIn, direct]⟩
  case refOpen =>
    split at hs <;> cases hs
    exact ⟨[], by simp, by simp [Sig.callsIn, direct]⟩
  case refWrite vs =>
    split at hs <;> cases hs
    exact ⟨[], by simp, by simp [Sig.callsIn, direct]⟩
  case refClose =>
    split at hs
    · split at hs
      · cases hs
      · next old rest _ =>
        split at hs
        · exact hch { s with refs := rest } s.val rfl rfl hs
        · cases hs; exact ⟨[], by simp, by simp [Sig.callsIn, direct]⟩
    · cases hs
  case connect =>
    simp only [Option.map_eq_some_iff] at hs
    obtain ⟨sg, h1, rfl⟩ := hs
    obtain ⟨new, h2, h3, _⟩ := Sig.log_step h1
    exact ⟨new, h2, by rw [h3]; simp [Sig.calledBy, direct]⟩
  case notifyOne sl =>
    split at hs <;> cases hs
    exact ⟨[], by simp, by simp [Sig.callsIn, direct]⟩
  case silentlyConnect =>
    simp only [Option.map_eq_some_iff] at hs
    obtain ⟨sg, h1, rfl⟩ := hs
    obtain ⟨new, h2, h3, _⟩ := Sig.log_step h1
    exact ⟨new, h2, by rw [h3]; simp [Sig.calledBy, direct]⟩
  case sig b =>
    split at hs
    · simp only [Option.map_eq_some_iff] at hs
      obtain ⟨sg, h1, rfl⟩ := hs
      obtain ⟨new, h2, h3, _⟩ := Sig.log_step h1
      refine ⟨new, h2, ?_⟩
      rw [h3]
      cases b <;> simp [Sig.calledBy, direct]
      case iter =>
        unfold justCalled Sig.callNow
        split
        · next h => rw [h]; rfl
        · next h =>
          split
          · next a i t sl he => exact absurd he (h a i t sl)
          · rfl
    · cases hs

/-! ### C27 -/

/-- The value a slot received last. -/
def lastOf (rcv : List (Sig.SlotId × List X)) (sl : Sig.SlotId) : Option (List X) :=
  rcv.foldl (fun acc p => if p.1 = sl then some p.2 else acc) none

/-- Histories without silent operations and without reconnects, in which the holder of a
`mutable_()` reference neither sets the observable otherwise nor connects observers while it
holds the reference. -/
def quiet (s : State X) : Act X → Bool
  | .set _ | .setAt _ | .refOpen | .notifyOne _ => s.refs.isEmpty
  | .silentSet _ | .silentlyConnect => false
  | .sig (.reconnect _) => false
  | _ => true

def quietRun (s : State X) : List (Act X) → Bool
  | [] => true
  | a :: as => quiet s a && match step s a with
    | some s' => quietRun s' as
    | none => true

/-- The value observers have been told of, or are being told of. -/
def base (s : State X) : List X := match s.refs with | [] => s.val | old :: _ => old

/-- The entries the emission in progress has called, or all. -/
def visited (g : Sig.State (List X)) : List Sig.Entry :=
  match g.emission with
  | none => g.slots
  | some e => g.slots.take e.count

structure Seen (s : State X) : Prop where
  inv : Sig.Inv s.sig
  len : s.refs.length ≤ 1
  arg : s.sig.ub = false → ∀ e, s.sig.emission = some e → e.arg = base s
  seen : s.sig.ub = false → ∀ t sl, ⟨t, some sl⟩ ∈ visited s.sig → sl ∉ s.pending → lastOf s.rcv sl = some (base s)

theorem lastOf_append (r : List (Sig.SlotId × List X)) (sl sl' : Sig.SlotId) (v : List X) :
    lastOf (r ++ [(sl, v)]) sl' = if sl = sl' then some v else lastOf r sl' := by
  simp [lastOf]

theorem seen_change {s : State X} (h : Seen s) (rest : List (List X)) (hrest : rest = []) (v : List X)
    (hf : Sig.free s.sig = true) {s' : State X} (hc : change { s with refs := rest } v = some s') : Seen s' := by
  subst hrest
  simp only [change, Option.map_eq_some_iff] at hc
  obtain ⟨g', hst, rfl⟩ := hc
  have hi' := Sig.inv_step h.inv hst
  rcases emit_cases hst with ⟨h1, h2⟩ | ⟨_, _, h2⟩ | ⟨h1, h2, h3⟩
  · have hno := no_emission_of_empty h.inv hf h1
    refine ⟨hi', by simp, ?_, ?_⟩
    · intro _ e hee; subst h2; simp [hno] at hee
    · intro _ t sl hm; subst h2; simp [visited, hno, h1] at hm
  · refine ⟨hi', by simp, ?_, ?_⟩
    · intro hu; simp [h2] at hu
    · intro hu; simp [h2] at hu
  · refine ⟨hi', by simp, ?_, ?_⟩
    · intro _ e hee; subst h3; simp at hee; subst hee; rfl
    · intro _ t sl hm; subst h3; simp [visited, Sig.Emission.count] at hm

/-- Steps of the signal that start no emission and call nobody. -/
theorem seen_sig {s s' : State X} (h : Seen s) (hi : Sig.Inv s'.sig) (h1 : s'.val = s.val) (h2 : s'.refs = s.refs)
    (h3 : s'.rcv = s.rcv) (hu : s'.sig.ub = false → s.sig.ub = false)
    (hem : ∀ e', s'.sig.emission = some e' → ∃ e, s.sig.emission = some e ∧ e.arg = e'.arg)
    (hv : ∀ t sl, ⟨t, some sl⟩ ∈ visited s'.sig → sl ∉ s'.pending → ⟨t, some sl⟩ ∈ visited s.sig ∧ sl ∉ s.pending) :
    Seen s' := by
  have hb : base s' = base s := by simp [base, h1, h2]
  refine ⟨hi, by rw [h2]; exact h.len, ?_, ?_⟩
  · intro hu' e' he'
    obtain ⟨e, he, ha⟩ := hem e' he'
    rw [hb, ← ha]; exact h.arg (hu hu') e he
  · intro hu' t sl hm hp
    obtain ⟨hm', hp'⟩ := hv t sl hm hp
    rw [hb, h3]; exact h.seen (hu hu') t sl hm' hp'

omit [DecidableEq X] in
theorem visited_disconnect (g : Sig.State (List X)) (n : Nat) (t : Nat) (sl : Sig.SlotId)
    (hm : ⟨t, some sl⟩ ∈ visited (Sig.disconnect g n).1) : ⟨t, some sl⟩ ∈ visited g := by
  have hrem : ∀ sl0, ∀ e : Sig.Entry, e.slot ≠ none → e ∈ visited (Sig.remove g sl0).1 → e ∈ visited g := by
    intro sl0 e hne hm
    unfold Sig.remove at hm
    split at hm
    · exact hm
    · split at hm
      · exact hm
      · next i hi x hx =>
        split at hm
        · next he =>
          have he' : g.emission = none := by simpa using he
          simp only [visited, he'] at hm ⊢
          exact (List.eraseIdx_sublist _ _).subset hm
        · next he =>
          simp only [visited] at hm ⊢
          cases hem : g.emission with
          | none => simp [hem] at he
          | some em =>
            rw [hem] at hm
            simp only at hm ⊢
            obtain ⟨j, hj, hje⟩ := List.getElem_of_mem hm
            have hj' : j < em.count ∧ j < g.slots.length := by simp at hj; omega
            rw [List.getElem_take, List.getElem_set] at hje
            split at hje
            · rw [← hje] at hne; exact absurd rfl hne
            · rw [← hje]
              rw [List.mem_take_iff_getElem]
              exact ⟨j, by omega, rfl⟩
  unfold Sig.disconnect at hm
  split at hm
  · next sl0 hsl =>
    split at hm
    · have := hrem sl0 ⟨t, some sl⟩ (by simp)
      split at hm
      · next s1 he => rw [he] at this; exact this hm
      · next s1 he => rw [he] at this; exact this hm
    · exact hm
  · exact hm

omit [DecidableEq X] in
theorem visited_drop (g : Sig.State (List X)) (n : Nat) : visited (Sig.dropHandle g n) = visited g := by
  simp [visited, (Sig.dropHandle_fields g n).2.2.2, (Sig.dropHandle_log g n).2]

omit [DecidableEq X] in
theorem awareReturn_emission (g : Sig.State (List X)) (sl : Sig.SlotId) (hu : (Sig.awareReturn g sl).ub = false) : g.ub = false := by
  unfold Sig.awareReturn at hu
  split at hu
  · exact hu
  · split at hu
    · split at hu
      · exact hu
      · cases hu
    · exact hu

theorem seen_step {s s' : State X} {a : Act X} (h : Seen s) (hq : quiet s a = true) (hs : step s a = some s') : Seen s' := by
  cases a <;> simp only [step] at hs
  case set vs =>
    have hr : s.refs = [] := by simpa [quiet] using hq
    split at hs
    · next hu =>
      split at hs
      · exact seen_change h s.refs hr vs (usable_free hu).2.1 hs
      · cases hs; exact h
    · cases hs
  case setAt ivs =>
    have hr : s.refs = [] := by simpa [quiet] using hq
    split at hs
    · next hu =>
      split at hs
      · exact seen_change h s.refs hr _ (usable_free hu).2.1 hs
      · cases hs; exact h
    · cases hs
  case silentSet vs => simp [quiet] at hq
  case silentlyConnect => simp [quiet] at hq
  case refOpen =>
    have hr : s.refs = [] := by simpa [quiet] using hq
    split at hs <;> cases hs
    have hb : base { s with refs := s.val :: s.refs } = base s := by simp [base, hr]
    exact ⟨h.inv, by simp [hr], fun hu e he => by rw [hb]; exact h.arg hu e he,
      fun hu t sl hm hp => by rw [hb]; exact h.seen hu t sl hm hp⟩
  case refWrite vs =>
    split at hs
    · next hg =>
      cases hs
      simp only [Bool.and_eq_true, Bool.not_eq_true'] at hg
      have hb : base { s with val := vs } = base s := by
        cases hr : s.refs with
        | nil => simp [hr] at hg
        | cons o r => simp [base, hr]
      exact ⟨h.inv, h.len, fun hu e he => by rw [hb]; exact h.arg hu e he,
        fun hu t sl hm hp => by rw [hb]; exact h.seen hu t sl hm hp⟩
    · cases hs
  case refClose =>
    split at hs
    · next hu =>
      split at hs
      · cases hs
      · next old rest hrefs =>
        have hrest : rest = [] := by
          have := h.len
          rw [hrefs] at this; simp at this; exact this
        split at hs
        · exact seen_change h rest hrest _ (usable_free hu).2.1 hs
        · next he =>
          cases hs
          have he' : old = s.val := by simpa using he
          have hb : base { s with refs := rest } = base s := by simp [base, hrest, hrefs, he']
          exact ⟨h.inv, by simp [hrest], fun hu e he => by rw [hb]; exact h.arg hu e he,
            fun hu t sl hm hp => by rw [hb]; exact h.seen hu t sl hm hp⟩
    · cases hs
  case connect =>
    simp only [Option.map_eq_some_iff] at hs
    obtain ⟨g', hst, rfl⟩ := hs
    have hi' := Sig.inv_step h.inv hst
    simp only [Sig.step, Sig.body] at hst
    split at hst
    · cases hst
    next hu =>
    split at hst <;> cases hst
    refine seen_sig h hi' rfl rfl rfl (fun hh => hh) (fun e' he' => ⟨e', he', rfl⟩) ?_
    intro t sl hm hp
    have hp' : sl ∉ s.pending ∧ sl ≠ s.sig.nextSlot := by
      simp only [List.mem_append, List.mem_singleton, not_or] at hp; exact hp
    refine ⟨?_, hp'.1⟩
    simp only [visited, Sig.add] at hm ⊢
    cases hem : s.sig.emission with
    | none =>
      rw [hem] at hm
      simp only [List.mem_append, List.mem_singleton, Sig.Entry.mk.injEq, Option.some.injEq] at hm
      rcases hm with hm | hm
      · exact hm
      · exact absurd hm.2 hp'.2
    | some e =>
      rw [hem] at hm
      simp only at hm
      rw [List.take_append_of_le_length (h.inv.pos e hem)] at hm
      exact hm
  case notifyOne sl =>
    have hr : s.refs = [] := by simpa [quiet] using hq
    split at hs
    · cases hs
      have hb : base s = s.val := by simp [base, hr]
      refine ⟨h.inv, h.len, h.arg, ?_⟩
      intro hu t sl' hm hp
      by_cases e : sl' = sl
      · subst e
        have hhas : Sig.has s.sig sl' = true := by
          rw [Sig.has_iff]
          refine ⟨t, ?_⟩
          replace hm : Sig.Entry.mk t (some sl') ∈ visited s.sig := hm
          unfold visited at hm
          split at hm
          · exact hm
          · exact List.mem_of_mem_take hm
        show lastOf (s.rcv ++ _) sl' = some (base s)
        rw [if_pos hhas, lastOf_append, if_pos rfl, hb]
      · have hp' : sl' ∉ s.pending := by
          intro hmem; apply hp
          exact List.mem_filter.2 ⟨hmem, by simpa using e⟩
        have := h.seen hu t sl' hm hp'
        show lastOf (s.rcv ++ _) sl' = some (base s)
        split
        · rw [lastOf_append, if_neg (Ne.symm e)]; exact this
        · rw [List.append_nil]; exact this
    · cases hs
  case sig b =>
    split at hs
    · next hal =>
      simp only [Option.map_eq_some_iff] at hs
      obtain ⟨g', hst, rfl⟩ := hs
      have hi' := Sig.inv_step h.inv hst
      simp only [Sig.step] at hst
      split at hst
      · cases hst
      next hub =>
      have hub' : s.sig.ub = false := by simpa using hub
      cases b <;> simp only [allowed, Bool.false_eq_true] at hal <;> simp only [Sig.body] at hst
      case disconnect n =>
        split at hst <;> cases hst
        refine seen_sig h hi' rfl rfl (List.append_nil _) (fun _ => hub') ?_ ?_
        · intro e' he'
          exact ⟨e', (Sig.disconnect_fields s.sig n).2.2.2.1 ▸ he', rfl⟩
        · intro t sl hm hp
          exact ⟨visited_disconnect _ _ _ _ hm, hp⟩
      case reconnect n => simp [quiet] at hq
      case drop n =>
        split at hst <;> cases hst
        refine seen_sig h hi' rfl rfl (List.append_nil _) (fun _ => hub') ?_ ?_
        · intro e' he'
          exact ⟨e', (Sig.dropHandle_fields s.sig n).2.2.2 ▸ he', rfl⟩
        · intro t sl hm hp
          refine ⟨?_, hp⟩
          rw [← visited_drop s.sig n]; exact hm
      case scopeEnd n =>
        split at hst <;> cases hst
        refine seen_sig h hi' rfl rfl (List.append_nil _) (fun _ => hub') ?_ ?_
        · intro e' he'
          refine ⟨e', ?_, rfl⟩
          simp only [(Sig.dropHandle_fields _ n).2.2.2] at he'
          split at he'
          · rw [(Sig.disconnect_fields s.sig n).2.2.2.1] at he'; exact he'
          · exact he'
        · intro t sl hm hp
          refine ⟨?_, hp⟩
          simp only [visited_drop] at hm
          split at hm
          · exact visited_disconnect _ _ _ _ hm
          · exact hm
      case clear =>
        split at hst
        · split at hst <;> cases hst
          · exact seen_sig h hi' rfl rfl (List.append_nil _) (by simp) (fun e' he' => ⟨e', he', rfl⟩)
              (fun t sl hm hp => ⟨hm, hp⟩)
          · next he =>
            refine seen_sig h hi' rfl rfl (List.append_nil _) (fun _ => hub') (fun e' he' => ⟨e', he', rfl⟩) ?_
            intro t sl hm hp
            have he' : s.sig.emission = none := by simpa using he
            simp [visited, he'] at hm
        · cases hst
      case destroy =>
        split at hst
        · split at hst <;> cases hst
          · exact seen_sig h hi' rfl rfl (List.append_nil _) (by simp) (fun e' he' => ⟨e', he', rfl⟩)
              (fun t sl hm hp => ⟨hm, hp⟩)
          · next he =>
            refine seen_sig h hi' rfl rfl (List.append_nil _) (fun _ => hub') (fun e' he' => ⟨e', he', rfl⟩) ?_
            intro t sl hm hp
            have he' : s.sig.emission = none := by simpa using he
            simp [visited, he'] at hm
        · cases hst
      case ret =>
        split at hst
        · next a i t0 sl0 hem =>
          cases hst
          refine seen_sig h hi' rfl rfl (List.append_nil _) (fun _ => hub') ?_ ?_
          · intro e' he'
            simp at he'; subst he'
            exact ⟨_, hem, rfl⟩
          · intro t sl hm hp
            refine ⟨?_, hp⟩
            simp only [visited, (Sig.awareReturn_same s.sig sl0).1, Sig.Emission.count] at hm
            simp only [visited, hem, Sig.Emission.count]
            exact hm
        · cases hst
      case iter =>
        split at hst
        · next a i hem =>
          have harg : a = base s := h.arg hub' _ hem
          have hpos : i ≤ s.sig.slots.length := by simpa [Sig.Emission.count] using h.inv.pos _ hem
          split at hst
          · next hnone =>
            cases hst
            have hi : s.sig.slots.length ≤ i := List.getElem?_eq_none_iff.1 hnone
            refine seen_sig h hi' rfl rfl (by simp [justCalled]) (fun _ => hub') (by simp) ?_
            intro t sl hm hp
            refine ⟨?_, hp⟩
            simp only [visited, hem, Sig.Emission.count]
            simp only [visited] at hm
            simp only [Option.isSome_none, Bool.false_eq_true, if_false]
            rw [List.take_of_length_le hi]; exact hm
          · next t0 hget =>
            cases hst
            have htake : (s.sig.slots.eraseIdx i).take i = s.sig.slots.take i := by
              rw [List.eraseIdx_eq_take_drop_succ, List.take_append_of_le_length (by simp; omega), List.take_take]; simp
            refine seen_sig h hi' rfl rfl (by simp [justCalled, hem]) (fun _ => hub') (fun e' he' => ⟨e', he', rfl⟩) ?_
            intro t sl hm hp
            refine ⟨?_, hp⟩
            simp only [visited, hem, Sig.Emission.count, Option.isSome_none, Bool.false_eq_true, if_false, htake] at hm ⊢
            exact hm
          · next t0 sl0 hget =>
            cases hst
            refine ⟨hi', h.len, ?_, ?_⟩
            · intro _ e he
              simp at he; subst he; exact harg
            · intro _ t sl hm hp
              show lastOf (s.rcv ++ [(sl0, a)]) sl = some (base s)
              rw [lastOf_append]
              split
              · rw [harg]
              · next hne =>
                refine h.seen hub' t sl ?_ hp
                simp only [visited, Sig.Emission.count, Option.isSome_some, if_true, List.take_add_one, hget] at hm
                simp only [visited, hem, Sig.Emission.count, Option.isSome_none, Bool.false_eq_true, if_false]
                rcases List.mem_append.1 hm with hm | hm
                · exact hm
                · simp at hm; exact absurd hm.2.symm hne
        · cases hst
    · cases hs

/-- C27, the part that holds: in quiet histories, whenever no emission is in progress and no
reference is open, every connected observer whose `connect` has returned has received the
current value last. Missing: reconnected observers and nested references, see below. -/
theorem observers_up_to_date_partial (v0 : List X) (acts : List (Act X)) (s : State X)
    (hr : run (init v0) acts = some s) (hq : quietRun (init v0) acts = true) (he : s.sig.emission = none)
    (hrefs : s.refs = []) (hu : s.sig.ub = false) (sl : Sig.SlotId) (hc : Sig.IsConnected s.sig.log sl)
    (hp : sl ∉ s.pending) : lastOf s.rcv sl = some s.val := by
  have key : ∀ (acts : List (Act X)) (s0 : State X), Seen s0 → quietRun s0 acts = true → run s0 acts = some s → Seen s := by
    intro acts
    induction acts with
    | nil => intro s0 h0 _ h; cases h; exact h0
    | cons a as ih =>
      intro s0 h0 hq h
      simp only [run] at h
      simp only [quietRun, Bool.and_eq_true] at hq
      cases hs : step s0 a with
      | none => simp [hs] at h
      | some s1 =>
        simp only [hs, Option.bind_some] at h
        have hq2 := hq.2
        simp only [hs] at hq2
        exact ih s1 (seen_step h0 hq.1 hs) hq2 h
  have h0 : Seen (init v0 : State X) :=
    ⟨Sig.inv_init, by simp [init], fun _ e he => by simp [init, Sig.init] at he,
     fun _ t sl hm => by simp [init, Sig.init, visited] at hm⟩
  have hS := key acts _ h0 hq hr
  obtain ⟨t, ht⟩ := hc
  rw [hS.inv.conns, Sig.mem_liveOf] at ht
  have := hS.seen hu t sl (by simpa [visited, he] using ht) hp
  simpa [base, hrefs] using this

/-- C27: `connect` calls the new observer with the current state before it returns (unless it
has been disconnected by then). -/
theorem connect_calls_at_once (s s' : State X) (sl : Sig.SlotId) (hs : step s (.notifyOne sl) = some s')
    (hc : Sig.has s.sig sl = true) : s'.rcv = s.rcv ++ [(sl, s.val)] ∧ lastOf s'.rcv sl = some s'.val ∧ sl ∉ s'.pending := by
  simp only [step, hc, if_true] at hs
  split at hs <;> cases hs
  refine ⟨rfl, ?_, ?_⟩
  · simp [lastOf_append]
  · simp

/-- C27 does not hold for a reconnected observer: `reconnect` does not call it, so it keeps
the value it had when it was disconnected. -/
theorem reconnect_stale : ∃ s : State Nat,
    run (init [0]) [.connect, .notifyOne 0, .sig (.disconnect 0), .set [5], .sig (.reconnect 0)] = some s ∧
      Sig.connected s.sig 0 = true ∧ s.val = [5] ∧ lastOf s.rcv 0 = some [0] :=
  ⟨_, rfl, rfl, rfl, rfl⟩

/-- C27 does not hold for `set` while a `mutable_()` reference is held: if the holder then
restores the old value, the observers are left with the value of the `set`. And a `set` while
a reference is held can notify the same value twice (C26). -/
theorem nested_reference_stale :
    (∃ s : State Nat, run (init [0]) [.connect, .notifyOne 0, .refOpen, .set [6], .sig .iter, .sig .ret, .sig .iter,
        .refWrite [0], .refClose] = some s ∧ s.val = [0] ∧ lastOf s.rcv 0 = some [6] ∧ s.sig.emission = none) ∧
    (∃ s : State Nat, run (init [0]) [.connect, .notifyOne 0, .refOpen, .set [6], .sig .iter, .sig .ret, .sig .iter,
        .refClose, .sig .iter, .sig .ret, .sig .iter] = some s ∧ s.rcv = [(0, [0]), (0, [6]), (0, [6])]) :=
  ⟨⟨_, rfl, rfl, rfl, rfl⟩, ⟨_, rfl, rfl⟩⟩

/-! ### The hypotheses are met -/

/-- Two observers, a `set` during which the first one connects a third, then a change through
a reference. -/
def sample : List (Act Nat) :=
  [.connect, .notifyOne 0, .connect, .notifyOne 1, .set [1, 2], .sig .iter, .connect, .notifyOne 2, .sig .ret,
   .sig .iter, .sig .ret, .sig .iter, .sig .ret, .sig .iter, .refOpen, .refWrite [3, 2], .refClose,
   .sig .iter, .sig .ret, .sig .iter, .sig .ret, .sig .iter, .sig .ret, .sig .iter, .setAt [(1, 2)]]

example : quietRun (init [0, 0]) sample = true := rfl

example : ∃ s, run (init [0, 0]) sample = some s ∧ s.sig.emission = none ∧ s.refs = [] ∧ s.pending = [] ∧
    s.rcv = [(0, [0, 0]), (1, [0, 0]), (0, [1, 2]), (2, [1, 2]), (1, [1, 2]), (2, [1, 2]),
      (0, [3, 2]), (1, [3, 2]), (2, [3, 2])] :=
  ⟨_, rfl, rfl, rfl, rfl, rfl⟩

example : ∃ s s1 s2 : State Nat, run (init [0]) [.connect, .notifyOne 0, .connect, .notifyOne 1] = some s ∧
    s.sig.emission = none ∧ Changes s (.set [7]) [7] ∧ step s (.set [7]) = some s1 ∧
    run s1 [.sig .iter, .sig .ret, .sig .iter, .sig .ret, .sig .iter] = some s2 ∧ s2.sig.emission = none :=
  ⟨_, _, _, rfl, rfl, .set (by decide), rfl, rfl, rfl⟩

end Maf.Obs
