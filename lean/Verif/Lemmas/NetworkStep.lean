import Verif.Lemmas.NetworkInv
/-
The invariant of networks of signals is kept by every step.
-/
namespace Maf.Net

/-! ### Objects -/

def Gone (owned : Obj → Bool) (active : List (Tid × SigId × SlotId × Obj)) (log : List Ev) : Prop :=
  ∀ o, .objGone o ∈ log ↔ (owned o || active.any fun x => x.2.2.2 == o) = false

theorem Gone.more {owned active log} (h : Gone owned active log) (es : List Ev) (hs : ∀ e ∈ es, ∀ o, e ≠ .objGone o) : Gone owned active (log ++ es) := by
  intro o
  rw [← h o]
  refine ⟨fun hm => ?_, List.mem_append_left _⟩
  rcases List.mem_append.1 hm with hm | hm
  · exact hm
  · exact absurd rfl (hs _ hm o)

/-- One object, which has existed until now, may go away. -/
theorem Gone.less {owned owned' active active' log} (h : Gone owned active log) (o : Obj) (ho : (owned o || active.any fun x => x.2.2.2 == o) = true)
    (hx : ∀ o', o' ≠ o → (owned' o' || active'.any fun x => x.2.2.2 == o') = (owned o' || active.any fun x => x.2.2.2 == o')) :
    Gone owned' active' (log ++ (if (owned' o || active'.any fun x => x.2.2.2 == o) then [] else [.objGone o])) := by
  intro o'
  by_cases e : o' = o
  · subst e
    have hn : Ev.objGone o' ∉ log := by rw [h o', ho]; simp
    cases hc : (owned' o' || active'.any fun x => x.2.2.2 == o') <;> simp [hn]
  · rw [hx o' e, ← h o']
    rw [List.mem_append]
    constructor
    · rintro (hm | hm)
      · exact hm
      · split at hm <;> simp at hm; exact absurd hm e
    · exact .inl

/-- An object that is not held is not used. -/
theorem idle_runs {sigs kinds active stk jobs log} (hS : Sound sigs kinds log) (hR : Runs active stk jobs log) {o : Obj} (ho : (active.any fun x => x.2.2.2 == o) = false)
    {g : SigId} {sl : SlotId} (hk : Is log g sl (.tracked o)) (t : Tid) (a : Nat) : log.count (.ran t g sl a) = log.count (.returned t g sl a) := by
  rw [hR.runs t g sl a]
  have : (stk t).countP (runsF g sl a) = 0 := by
    rw [List.countP_eq_zero]
    intro f hf hr
    have hfo := hR.frames t f hf
    cases f with
    | user g' sl' a' o' =>
      simp [runsF] at hr
      obtain ⟨⟨rfl, rfl⟩, rfl⟩ := hr
      cases o' with
      | none => have := hS.unique hfo hk; cases this
      | some o' =>
        have := hS.unique hfo hk
        cases this
        have hc := hR.act t g' sl' o
        have : 0 < (stk t).countP (holds g' sl' o) := List.countP_pos_iff.2 ⟨_, hf, by simp [holds]⟩
        rw [← hc] at this
        have hm := List.count_pos_iff.1 this
        rw [List.any_eq_false] at ho
        exact ho _ hm (by simp)
    | job g' sl' a' =>
      simp [runsF] at hr
      obtain ⟨⟨rfl, rfl⟩, rfl⟩ := hr
      rcases hfo with hfo | ⟨o', hfo⟩ <;> have := hS.unique hfo hk <;> cases this
    | _ => simp [runsF] at hr
  omega

/-! ### Calls -/

def CallsOk (ub : Bool) (log : List Ev) : Prop :=
  ∀ l t g tk sl a m, log = l ++ .sig t g (.called tk sl a) :: m → ∃ k, Is l g sl k ∧ Follows ub l m t g sl a k

def isCall : Ev → Bool
  | .sig _ _ (.called ..) => true
  | _ => false

theorem split_called {log es l m : List Ev} {e : Ev} (h : log ++ es = l ++ e :: m) (hn : e ∉ es) : ∃ m0, log = l ++ e :: m0 ∧ m = m0 ++ es := by
  rcases List.append_eq_append_iff.1 h with ⟨x, hx, hy⟩ | ⟨x, hx, hy⟩
  · exact absurd (by rw [hy]; simp) hn
  · cases x with
    | nil => simp at hy; exact absurd (by rw [← hy]; simp) hn
    | cons z x => simp at hy; obtain ⟨rfl, rfl⟩ := hy; exact ⟨x, hx, rfl⟩

theorem Follows.more {l m : List Ev} {t g sl a k} (h : Follows false l m t g sl a k) (ub : Bool) (es : List Ev) : Follows ub l (m ++ es) t g sl a k := by
  have hd : ∀ e, m.head? = some e → (m ++ es).head? = some e := by
    intro e he; cases m with
    | nil => simp at he
    | cons x m => simpa using he
  cases k with
  | plain | queued => exact hd _ h
  | tracked o | trackedQueued o =>
    rcases h with h | ⟨_, h⟩
    · exact .inl (hd _ h)
    · cases h
  | forward h' =>
    rcases h with h | ⟨_, h⟩
    · exact .inl (hd _ h)
    · cases h

theorem CallsOk.more {log : List Ev} (h : CallsOk false log) (ub : Bool) (es : List Ev) (hn : ∀ e ∈ es, isCall e = false) : CallsOk ub (log ++ es) := by
  intro l t g tk sl a m hl
  obtain ⟨m0, h1, rfl⟩ := split_called hl (by intro hm; have := hn _ hm; simp [isCall] at this)
  obtain ⟨k, hk, hf⟩ := h l t g tk sl a m0 h1
  exact ⟨k, hk, hf.more ub es⟩

theorem CallsOk.called {log : List Ev} (h : CallsOk false log) (ub : Bool) {t g tk sl a k} (es : List Ev) (hn : ∀ e ∈ es, isCall e = false)
    (hk : Is log g sl k) (hf : Follows ub log es t g sl a k) : CallsOk ub (log ++ .sig t g (.called tk sl a) :: es) := by
  intro l t' g' tk' sl' a' m hl
  rcases List.append_eq_append_iff.1 hl with ⟨x, hx, hy⟩ | ⟨x, hx, hy⟩
  · cases x with
    | nil => simp at hx hy; obtain ⟨⟨rfl, rfl, rfl, rfl, rfl⟩, rfl⟩ := hy; subst hx; exact ⟨k, hk, hf⟩
    | cons z x =>
      simp at hy; have := hn (.sig t' g' (.called tk' sl' a')) (by rw [hy.2]; simp); simp [isCall] at this
  · cases x with
    | nil => simp at hx hy; obtain ⟨⟨rfl, rfl, rfl, rfl, rfl⟩, rfl⟩ := hy; subst hx; exact ⟨k, hk, hf⟩
    | cons z x =>
      simp at hy; obtain ⟨rfl, rfl⟩ := hy
      obtain ⟨k', hk', hf'⟩ := h l t' g' tk' sl' a' x hx
      exact ⟨k', hk', hf'.more ub _⟩

/-! ### Stacks -/

def FwdOk (log : List Ev) (t : Tid) (above : Option Frame) : Frame → Prop
  | .fwd g sl h a => ∃ l1 l2, log = l1 ++ .forward t g sl h a :: l2 ∧
    (match above with
      | none => Emitted t h a l2
      | some (.wants h' (.emit a')) => h' = h ∧ a' = a
      | some (.notifying h' a') => h' = h ∧ a' = a ∧ .sig t h (.emitted a) ∈ l2
      | _ => False)
  | _ => True

def Stk (log : List Ev) (t : Tid) : Option Frame → List Frame → Prop
  | _, [] => True
  | ab, f :: fs => FwdOk log t ab f ∧ Stk log t (some f) fs

theorem Emitted.more {t h a l} (he : Emitted t h a l) (es : List Ev) : Emitted t h a (l ++ es) := by
  rcases he with he | ⟨p, q, rfl, hq⟩
  · exact .inl (List.mem_append_left _ he)
  · exact .inr ⟨p, q ++ es, by simp, List.mem_append_left _ hq⟩

theorem FwdOk.more {log t ab f} (h : FwdOk log t ab f) (es : List Ev) : FwdOk (log ++ es) t ab f := by
  cases f with
  | fwd g sl h' a =>
    obtain ⟨l1, l2, rfl, hm⟩ := h
    refine ⟨l1, l2 ++ es, by simp, ?_⟩
    split at hm
    · exact hm.more es
    · exact hm
    · exact ⟨hm.1, hm.2.1, List.mem_append_left _ hm.2.2⟩
    · exact hm
  | _ => trivial

theorem Stk.more {log t ab st} (h : Stk log t ab st) (es : List Ev) : Stk (log ++ es) t ab st := by
  induction st generalizing ab with
  | nil => trivial
  | cons f fs ih => exact ⟨h.1.more es, ih h.2⟩

theorem Stk.tail {log es : List Ev} {t ab ab' f rest} (h : Stk log t ab (f :: rest)) (hc : ∀ x, FwdOk log t (some f) x → FwdOk (log ++ es) t ab' x) : Stk (log ++ es) t ab' rest := by
  cases rest with
  | nil => trivial
  | cons x xs => exact ⟨hc x h.2.1, h.2.2.more es⟩

/-- The top frame, which is not an emission, goes. -/
theorem Stk.pop {log : List Ev} {t f rest} (h : Stk log t none (f :: rest)) (hf : ∀ h' w, f ≠ .wants h' w) (hn : ∀ h' a, f ≠ .notifying h' a) (es : List Ev) : Stk (log ++ es) t none rest := by
  refine h.tail fun x hx => ?_
  cases x with
  | fwd g sl h' a =>
    obtain ⟨l1, l2, -, hm⟩ := hx
    split at hm
    · next e => cases e
    · next e => cases e; exact absurd rfl (hf _ _)
    · next e => cases e; exact absurd rfl (hn _ _)
    · exact hm.elim
  | _ => trivial

/-- A frame is put on top of one that is not a slot that emits. -/
theorem Stk.push {log : List Ev} {t st} (h : Stk log t none st) (f : Frame) (ht : ∀ x, st.head? = some x → ∀ g sl h' a, x ≠ .fwd g sl h' a) (hf : FwdOk log t none f) : Stk log t none (f :: st) := by
  refine ⟨hf, ?_⟩
  cases st with
  | nil => trivial
  | cons x xs =>
    refine ⟨?_, h.2⟩
    have := ht x (by simp)
    cases x with
    | fwd g sl h' a => exact absurd rfl (this g sl h' a)
    | _ => trivial

theorem stk_upd {stk : Tid → List Frame} {log es : List Ev} {t : Tid} {st : List Frame} (h : ∀ t, Stk log t none (stk t)) (h' : Stk (log ++ es) t none st) :
    ∀ t', Stk (log ++ es) t' none (upd stk t st t') := by
  intro t'
  by_cases e : t' = t
  · subst e; rw [upd_same]; exact h'
  · rw [upd_other _ _ e]; exact (h t').more es

/-! ### The invariant -/

structure Core (s : State) : Prop where
  sound : Sound s.sigs s.kinds s.log
  runs : Runs s.active s.stk s.jobs s.log
  gone : Gone s.owned s.active s.log
  hist : Hist EvOk s.log
  calls : CallsOk s.ub s.log

structure Inv (s : State) : Prop where
  core : Core s
  aware : s.ub = false → Aware s.sigs
  stack : s.ub = false → ∀ t, Stk s.log t none (s.stk t)

theorem hist_sig {l : List Ev} (h : Hist EvOk l) (t : Tid) (g : SigId) (es : List (Sig.Ev Nat)) : Hist EvOk (l ++ es.map (.sig t g)) := by
  refine h.free ?_
  intro l e he
  simp at he
  obtain ⟨x, _, rfl⟩ := he
  trivial

/-- Events of signals change nothing else. -/
theorem Runs.sig {active stk jobs log} (h : Runs active stk jobs log) (t : Tid) (g : SigId) (es : List (Sig.Ev Nat)) : Runs active stk jobs (log ++ es.map (.sig t g)) := by
  refine h.quiet' _ ?_ ?_ <;> intro e he <;> simp at he <;> obtain ⟨x, _, rfl⟩ := he <;> simp [Net.quiet]

theorem Gone.sig {owned active log} (h : Gone owned active log) (t : Tid) (g : SigId) (es : List (Sig.Ev Nat)) : Gone owned active (log ++ es.map (.sig t g)) := by
  refine h.more _ ?_
  intro e he o; simp at he; obtain ⟨x, _, rfl⟩ := he; simp

theorem no_calls {t : Tid} {g : SigId} {es : List (Sig.Ev Nat)} (h : ∀ tk sl b, Sig.Ev.called tk sl b ∉ es) : ∀ e ∈ es.map (Ev.sig t g), isCall e = false := by
  intro e he
  simp at he
  obtain ⟨x, hx, rfl⟩ := he
  cases x <;> first | rfl | (exact absurd hx (h _ _ _))

theorem Core.sig {s s' : State} {t : Tid} {g : SigId} {a : Sig.Act Nat} (h : Core s) (hu : s.ub = false) (hs : sigStep s t g a = some s') (ha : mild a = true) (hi : a ≠ .iter) : Core s' := by
  obtain ⟨x, es, h1, h2, h3, rfl⟩ := sigStep_spec hs
  exact ⟨h.sound.moved h1 h2 ha, h.runs.sig t g es, h.gone.sig t g es, hist_sig h.hist t g es, (hu ▸ h.calls).more _ _ (no_calls (h3 hi))⟩

theorem canCall_top {s : State} {t : Tid} (h : canCall s t = true) : ∀ x, (s.stk t).head? = some x → ∀ g sl h' a, x ≠ .fwd g sl h' a := by
  intro x hx g sl h' a e
  subst e
  unfold canCall at h
  cases hs : s.stk t with
  | nil => rw [hs] at hx; cases hx
  | cons f fs => rw [hs] at hx h; simp at hx; subst hx; simp [Frame.isUser] at h

theorem inv_call {s : State} (h : Inv s) (hu : s.ub = false) {t : Tid} {g : SigId} {w : Want} (hc : canCall s t = true) :
    Inv { s with stk := upd s.stk t (.wants g w :: s.stk t) } := by
  have hR := h.core.runs
  refine ⟨⟨h.core.sound, ?_, h.core.gone, h.core.hist, h.core.calls⟩, h.aware, fun _ => ?_⟩
  · refine hR.swap ?_ ?_ ?_
    · intro f hf
      rcases List.mem_cons.1 hf with rfl | hf
      · trivial
      · exact hR.frames t f hf
    · intro g' sl a; rw [List.countP_cons]; simp [runsF]
    · intro g' sl a; rw [List.countP_cons]; simp [holds]
  · have := stk_upd (es := []) (st := .wants g w :: s.stk t) (t := t) (h.stack hu) (by simpa using (h.stack hu t).push (.wants g w) (canCall_top hc) trivial)
    simpa using this

/-- A frame that waits goes. -/
theorem Runs.popWants {active stk jobs log} (h : Runs active stk jobs log) {t : Tid} {g : SigId} {w : Want} {rest : List Frame} (hr : stk t = .wants g w :: rest) :
    Runs active (upd stk t rest) jobs log := by
  refine h.swap ?_ ?_ ?_
  · intro f hf; exact h.frames t f (by rw [hr]; exact List.mem_cons_of_mem _ hf)
  · intro g' sl a; rw [hr, List.countP_cons]; simp [runsF]
  · intro g' sl a; rw [hr, List.countP_cons]; simp [holds]

theorem stk_popOp {log es : List Ev} {t : Tid} {g : SigId} {w : Want} {rest : List Frame} (h : Stk log t none (.wants g w :: rest)) (hw : ∀ a, w ≠ .emit a) : Stk (log ++ es) t none rest := by
  refine h.tail fun x hx => ?_
  cases x with
  | fwd g sl h' a =>
    obtain ⟨l1, l2, -, hm⟩ := hx
    split at hm
    · next e => cases e
    · next e => cases e; exact absurd rfl (hw _)
    · next e => cases e
    · exact hm.elim
  | _ => trivial

theorem stk_skip {log : List Ev} {t : Tid} {g : SigId} {a : Nat} {rest : List Frame} (h : Stk log t none (.wants g (.emit a) :: rest)) : Stk (log ++ [.skipped t g a]) t none rest := by
  refine h.tail fun x hx => ?_
  cases x with
  | fwd g0 sl0 h' a0 =>
    obtain ⟨l1, l2, rfl, hm⟩ := hx
    obtain ⟨rfl, rfl⟩ := hm
    exact ⟨l1, l2 ++ [.skipped t g a], by simp, .inl (by simp)⟩
  | _ => trivial

theorem stk_emit {log : List Ev} {t : Tid} {g : SigId} {a : Nat} {rest : List Frame} (h : Stk log t none (.wants g (.emit a) :: rest)) :
    Stk (log ++ [.sig t g (.emitted a)]) t none (.notifying g a :: rest) := by
  refine ⟨trivial, h.tail fun x hx => ?_⟩
  cases x with
  | fwd g0 sl0 h' a0 =>
    obtain ⟨l1, l2, rfl, hm⟩ := hx
    obtain ⟨rfl, rfl⟩ := hm
    exact ⟨l1, l2 ++ [.sig t g (.emitted a)], by simp, rfl, rfl, by simp⟩
  | _ => trivial

theorem stk_done {log : List Ev} {t : Tid} {g : SigId} {a : Nat} {rest : List Frame} (h : Stk log t none (.notifying g a :: rest)) :
    Stk (log ++ [.sig t g .emissionDone]) t none rest := by
  refine h.tail fun x hx => ?_
  cases x with
  | fwd g0 sl0 h' a0 =>
    obtain ⟨l1, l2, rfl, hm⟩ := hx
    obtain ⟨rfl, rfl, hm⟩ := hm
    obtain ⟨p, q, rfl⟩ := List.append_of_mem hm
    exact ⟨l1, _, by simp only [List.append_assoc, List.cons_append]; rfl, .inr ⟨p, q ++ [.sig t g .emissionDone], by simp, by simp⟩⟩
  | _ => trivial

theorem sig_emit {x x' : Sig.State Nat} {a : Nat} (h : Sig.step x (.emit a) = some x') (hn : x.slots ≠ []) : x'.ub = true ∨ x'.log = x.log ++ [.emitted a] := by
  unfold Sig.step at h
  split at h
  · cases h
  simp only [Sig.body] at h
  split at h
  · split at h
    · cases h; exact .inl rfl
    · cases h; exact .inr rfl
  · cases h

theorem inv_emit {s s' : State} (h : Inv s) (hu : s.ub = false) {t : Tid} {g : SigId} {a : Nat} {rest : List Frame} (hr : s.stk t = .wants g (.emit a) :: rest)
    (hs : entered s t g rest (.emit a) = some s') : Inv s' := by
  have hC := h.core
  have hSt := h.stack hu
  have hcl : CallsOk false s.log := hu ▸ hC.calls
  simp only [entered] at hs
  split at hs
  · next hc =>
    cases hs
    refine ⟨⟨hC.sound.still _ (by simp [Net.still]), (hC.runs.popWants hr).quiet' _ (by simp [Net.quiet]) (by simp), hC.gone.more _ (by simp), hC.hist.one ?_, hcl.more _ _ (by simp [isCall])⟩, h.aware, fun _ => ?_⟩
    · have hI := hC.sound.inv g
      show Sig.connections (sigLog g s.log) = []
      rw [← hC.sound.proj, hI.conns]
      rcases hc with hc | hc
      · rw [((hC.sound.shut g).1 hc).1]; rfl
      · rw [hc]; rfl
    · exact stk_upd hSt (stk_skip (hr ▸ hSt t))
  · next hc =>
    obtain ⟨x, es, h1, h2, h3, rfl⟩ := sigStep_spec hs
    have hR : Runs s.active (upd s.stk t (.notifying g a :: rest)) s.jobs s.log := by
      refine hC.runs.swap ?_ ?_ ?_
      · intro f hf
        rcases List.mem_cons.1 hf with rfl | hf
        · trivial
        · exact hC.runs.frames t f (by rw [hr]; exact List.mem_cons_of_mem _ hf)
      · intro g' sl a; rw [hr, List.countP_cons, List.countP_cons]; simp [runsF]
      · intro g' sl a; rw [hr, List.countP_cons, List.countP_cons]; simp [holds]
    refine ⟨⟨hC.sound.moved h1 h2 rfl, hR.sig t g es, hC.gone.sig t g es, hist_sig hC.hist t g es, hcl.more _ _ (no_calls (h3 (by simp)))⟩, fun _ => (h.aware hu).moved h1 (.inl trivial), fun hub => ?_⟩
    simp only [Bool.or_eq_false_iff] at hub
    rcases sig_emit h1 (fun e => hc (.inr e)) with hx | hx
    · rw [hub.2] at hx; cases hx
    · simp only at h2
      rw [hx] at h2
      have := List.append_cancel_left h2
      subst this
      exact stk_upd hSt (stk_emit (hr ▸ hSt t))

theorem no_slot_yet {s : State} (h : Core s) {g : SigId} {sl : SlotId} (hn : (s.sigs g).nextSlot ≤ sl) (a : Nat) : s.log.countP (ranOf g sl a) + s.jobs.count (g, sl, a) = 0 := by
  have hno : ∀ k, ¬ Is s.log g sl k := by
    intro k hk
    have := (h.sound.conn _ _ _ hk).2
    exact absurd hn (Nat.not_le_of_lt this)
  have h1 : s.log.countP (ranOf g sl a) = 0 := by
    rw [List.countP_eq_zero]
    intro e he hr
    cases e with
    | ran t g' sl' a' =>
      simp [ranOf] at hr
      obtain ⟨⟨rfl, rfl⟩, rfl⟩ := hr
      obtain ⟨l, m, hl⟩ := List.append_of_mem he
      have := h.hist.all l _ m hl
      have up : ∀ k, Is l g' sl' k → False := by
        intro k hk; exact hno k (by rw [hl]; exact hk.more _)
      rcases this with ⟨h1, _⟩ | ⟨o, h1, _⟩ | ⟨h1 | ⟨o, h1⟩, _⟩ <;> exact up _ h1
    | _ => simp [ranOf] at hr
  have h2 : s.jobs.count (g, sl, a) = 0 := by
    rw [List.count_eq_zero]
    intro hm
    rcases h.runs.posts _ hm with h1 | ⟨o, h1⟩ <;> exact hno _ h1
  omega

theorem inv_connect {s s' : State} (h : Inv s) (hu : s.ub = false) {t : Tid} {g : SigId} {k : Kind} {rest : List Frame} (hr : s.stk t = .wants g (.connect k) :: rest)
    (hs : entered s t g rest (.connect k) = some s') : Inv s' := by
  have hC := h.core
  have hSt := h.stack hu
  have hcl : CallsOk false s.log := hu ▸ hC.calls
  simp only [entered] at hs
  split at hs
  · cases hs
    refine ⟨⟨hC.sound, hC.runs.popWants hr, hC.gone, hC.hist, hC.calls⟩, h.aware, fun _ => ?_⟩
    have := stk_upd (es := []) hSt (stk_popOp (hr ▸ hSt t) (by simp))
    simpa using this
  · obtain ⟨x, es, h1, h2, h3, rfl⟩ := sigStep_spec hs
    have hrun : Runs s.active (upd s.stk t rest) s.jobs (s.log ++ [.connected t g (s.sigs g).nextSlot k]) := by
      refine (hC.runs.popWants hr).quiet _ (by simp [Net.quiet]) ?_
      intro g' sl' hb
      have old : ∀ k', Is (s.log ++ [.connected t g (s.sigs g).nextSlot k]) g' sl' k' → Is s.log g' sl' k' ∨ (g' = g ∧ sl' = (s.sigs g).nextSlot) := by
        rintro k' ⟨t', ht⟩
        rcases List.mem_append.1 ht with ht | ht
        · exact .inl ⟨t', ht⟩
        · simp at ht; exact .inr ⟨ht.2.1, ht.2.2.1⟩
      have fin : ∀ k', Is s.log g' sl' k' ∨ (g' = g ∧ sl' = (s.sigs g).nextSlot) → (Is s.log g' sl' k') ∨ ∀ a, s.log.countP (ranOf g' sl' a) + s.jobs.count (g', sl', a) = 0 := by
        rintro k' (hh | ⟨rfl, rfl⟩)
        · exact .inl hh
        · exact .inr fun a => no_slot_yet hC (Nat.le_refl _) a
      rcases hb with hb | ⟨o, hb⟩
      · rcases fin _ (old _ hb) with hh | hh
        · exact .inl (.inl hh)
        · exact .inr hh
      · rcases fin _ (old _ hb) with hh | hh
        · exact .inl (.inr ⟨o, hh⟩)
        · exact .inr hh
    refine ⟨⟨hC.sound.connects h1 h2, hrun.sig t g es, (hC.gone.more _ (by simp)).sig t g es, hist_sig (hC.hist.one ?_) t g es, ?_⟩, fun _ => (h.aware hu).moved h1 (.inr (by cases k.aware <;> simp)), fun _ => ?_⟩
    · intro k' hk'
      exact absurd (hC.sound.conn _ _ _ hk').2 (Nat.lt_irrefl _)
    · have := hcl.more (s.ub || x.ub) ([Ev.connected t g (s.sigs g).nextSlot k] ++ es.map (.sig t g)) (by
        intro e he
        rcases List.mem_append.1 he with he | he
        · simp at he; subst he; rfl
        · exact no_calls (h3 (by cases k.aware <;> simp)) e he)
      rwa [← List.append_assoc] at this
    · have := stk_upd (es := [Ev.connected t g (s.sigs g).nextSlot k] ++ es.map (Ev.sig t g)) hSt (stk_popOp (hr ▸ hSt t) (by simp))
      rwa [← List.append_assoc] at this

theorem sig_destroy_ub {x x' : Sig.State Nat} (h : Sig.step x .destroy = some x') (he : x.emission ≠ none) : x' = { x with ub := true } := by
  unfold Sig.step at h
  split at h
  · cases h
  simp only [Sig.body] at h
  split at h
  · split at h
    · cases h; rfl
    · next hc => simp at hc; exact absurd hc he
  · cases h

theorem inv_op {s s' : State} (h : Inv s) (hu : s.ub = false) {t : Tid} {g : SigId} {a : Sig.Act Nat} {rest : List Frame} (hr : s.stk t = .wants g (.op a) :: rest)
    (hs : entered s t g rest (.op a) = some s') : Inv s' := by
  have hC := h.core
  have hSt := h.stack hu
  have hcl : CallsOk false s.log := hu ▸ hC.calls
  simp only [entered] at hs
  split at hs
  · next hop =>
    split at hs
    · next s1 h0 =>
      cases hs
      obtain ⟨x, es, h1, h2, h3, rfl⟩ := sigStep_spec h0
      have hi : a ≠ .iter := by rintro rfl; simp [opOk] at hop
      have hlog : ∀ e ∈ (if a = .destroy ∧ (s.sigs g).emission = none then [Ev.destroyed t g] else []), e = .destroyed t g := by
        intro e he; split at he <;> simp at he; exact he
      refine ⟨⟨?_, ?_, ?_, ?_, ?_⟩, fun _ => (h.aware hu).moved h1 ?_, fun _ => ?_⟩
      · by_cases ha : a = .destroy
        · subst ha
          by_cases hem : (s.sigs g).emission = none
          · simp only [hem, and_self, if_true]
            exact hC.sound.destroys h1 h2 hem
          · have hx := sig_destroy_ub h1 hem
            have : es = [] := by
              rw [hx] at h2
              exact (List.append_cancel_left (as := (s.sigs g).log) (by simpa using h2)).symm
            subst this
            simp only [hem, and_false, if_false, List.map_nil, List.append_nil]
            exact hC.sound.same h1 hx
        · simp only [ha, false_and, if_false, List.append_nil]
          exact hC.sound.moved h1 h2 (mild_of_useful (useful_of_opOk hop ha))
      · refine ((hC.runs.popWants hr).quiet' _ ?_ ?_).sig t g es
        · intro e he; rw [hlog e he]; rfl
        · intro e he; rw [hlog e he]; simp
      · refine (hC.gone.more _ ?_).sig t g es
        intro e he o; rw [hlog e he]; simp
      · refine hist_sig (hC.hist.free ?_) t g es
        intro l e he; rw [hlog e he]; trivial
      · have := hcl.more (s.ub || x.ub) ((if a = Sig.Act.destroy ∧ (s.sigs g).emission = none then [Ev.destroyed t g] else []) ++ es.map (Ev.sig t g)) (by
          intro e he
          rcases List.mem_append.1 he with he | he
          · rw [hlog e he]; rfl
          · exact no_calls (h3 hi) e he)
        rwa [← List.append_assoc] at this
      · by_cases ha : a = .destroy
        · exact .inr (.inr (.inr ha))
        · exact .inl (useful_of_opOk hop ha)
      · have := stk_upd (es := (if a = Sig.Act.destroy ∧ (s.sigs g).emission = none then [Ev.destroyed t g] else []) ++ es.map (Ev.sig t g)) hSt (stk_popOp (hr ▸ hSt t) (by simp))
        rwa [← List.append_assoc] at this
    · cases hs
      refine ⟨⟨hC.sound, hC.runs.popWants hr, hC.gone, hC.hist, hC.calls⟩, h.aware, fun _ => ?_⟩
      have := stk_upd (es := []) hSt (stk_popOp (hr ▸ hSt t) (by simp))
      simpa using this
  · cases hs
    refine ⟨⟨hC.sound, hC.runs.popWants hr, hC.gone, hC.hist, hC.calls⟩, h.aware, fun _ => ?_⟩
    have := stk_upd (es := []) hSt (stk_popOp (hr ▸ hSt t) (by simp))
    simpa using this

/-- A slot whose object or signal does not exist any more: undefined behaviour. -/
theorem abandon_spec {s s' : State} {t : Tid} {g : SigId} {sl : SlotId} {a i tk : Nat} (hI : Sig.Inv (s.sigs g)) (hA : Sig.AwareOk (s.sigs g)) (hSh : Sig.Shut (s.sigs g))
    (he : (s.sigs g).emission = some ⟨a, i, some ⟨tk, some sl⟩⟩) (hm : (⟨tk, some sl⟩ : Sig.Entry) ∈ (s.sigs g).slots) (hs : abandon s t g sl = some s') :
    s'.ub = true ∧ ∃ x, ∃ es : List (Sig.Ev Nat), (∀ tk sl b, Sig.Ev.called tk sl b ∉ es) ∧ s' = { s with sigs := upd s.sigs g x, ub := true, log := s.log ++ es.map (.sig t g) } ∧
      ∀ kinds, Sound s.sigs kinds s.log → Sound (upd s.sigs g x) kinds (s.log ++ es.map (.sig t g)) := by
  unfold abandon at hs
  split at hs
  · cases hs
  · next h hl =>
    cases h1 : sigStep s t g (.disconnect h) with
    | none => rw [h1] at hs; cases hs
    | some s1 =>
      rw [h1] at hs
      simp only [Option.bind_some] at hs
      obtain ⟨x1, es1, a1, a2, a3, rfl⟩ := sigStep_spec h1
      obtain ⟨x2, es2, b1, b2, b3, rfl⟩ := sigStep_spec hs
      simp only [upd_same] at b1 b2
      have hub := Sig.self_disconnect hI hA hSh hl he hm a1 b1
      have hupd : upd (upd s.sigs g x1) g x2 = upd s.sigs g x2 := by
        funext j; unfold upd; split <;> rfl
      refine ⟨by simp [hub], x2, es1 ++ es2, ?_, ?_, ?_⟩
      · intro tk' sl' b hb
        rcases List.mem_append.1 hb with hb | hb
        · exact a3 (by simp) _ _ _ hb
        · exact b3 (by simp) _ _ _ hb
      · simp [hub, hupd]
      · intro kinds hS
        have h1 := hS.moved (t := t) a1 a2 rfl
        have h2 := h1.moved (t := t) (g := g) (a := .ret) (x := x2) (es := es2) (by rw [upd_same]; exact b1) (by rw [upd_same]; exact b2) rfl
        rw [hupd] at h2
        simpa using h2

theorem just_called {l : List Ev} {t g tk sl a} : JustCalled (l ++ [.sig t g (.called tk sl a)]) t g sl a := ⟨l, tk, rfl⟩

theorem Is.sig {l : List Ev} {g sl k} (h : Is l g sl k) (t g' : Nat) (es : List (Sig.Ev Nat)) : Is (l ++ es.map (.sig t g')) g sl k := h.more _

theorem Runs.popNotify {active stk jobs log} (h : Runs active stk jobs log) {t : Tid} {g : SigId} {a : Nat} {rest : List Frame} (hr : stk t = .notifying g a :: rest) :
    Runs active (upd stk t rest) jobs log := by
  refine h.swap ?_ ?_ ?_
  · intro f hf; exact h.frames t f (by rw [hr]; exact List.mem_cons_of_mem _ hf)
  · intro g' sl a; rw [hr, List.countP_cons]; simp [runsF]
  · intro g' sl a; rw [hr, List.countP_cons]; simp [holds]

/-- The executor gets a function, and the slot returns. -/
theorem core_posts {s s1 s' : State} {t : Tid} {g : SigId} {sl : SlotId} {a tk : Nat} {k : Kind} (hk : Is s.log g sl k)
    (hkk : k = .queued ∨ ∃ o, k = .trackedQueued o ∧ Ev.objGone o ∉ s.log) (hcl : CallsOk false s.log)
    (hlog : s1.log = s.log ++ [.sig t g (.called tk sl a)]) (h1 : Sound s1.sigs s1.kinds s1.log) (h2 : Runs s1.active s1.stk s1.jobs s1.log) (h3 : Gone s1.owned s1.active s1.log) (h4 : Hist EvOk s1.log)
    (hs : sigStep { s1 with jobs := s1.jobs ++ [(g, sl, a)], log := s1.log ++ [.posted t g sl a] } t g .ret = some s') :
    Core s' ∧ (Aware s1.sigs → Aware s'.sigs) ∧ s'.stk = s1.stk ∧ ∃ es, s'.log = s.log ++ es := by
  have hk1 : Is s1.log g sl k := by rw [hlog]; exact hk.more _
  have hby : ByExec s1.log g sl := by
    rcases hkk with rfl | ⟨o, rfl, _⟩
    · exact .inl hk1
    · exact .inr ⟨o, hk1⟩
  obtain ⟨x, es, c1, c2, c3, rfl⟩ := sigStep_spec hs
  refine ⟨⟨(h1.still [.posted t g sl a] (by simp [Net.still])).moved c1 c2 rfl, (h2.queues hby).sig t g es, (h3.more _ (by simp)).sig t g es, hist_sig (h4.one ?_) t g es, ?_⟩,
    fun ha => ha.moved c1 (.inl trivial), rfl, ?_⟩
  · refine ⟨by rw [hlog]; exact just_called, ?_⟩
    rcases hkk with rfl | ⟨o, rfl, ho⟩
    · exact .inl hk1
    · exact .inr ⟨o, hk1, by rw [hlog]; simp; exact ho⟩
  · simp only
    rw [hlog]
    have := hcl.called (s1.ub || x.ub) (tk := tk) (.posted t g sl a :: es.map (.sig t g)) (by
      intro e he
      rcases List.mem_cons.1 he with rfl | he
      · rfl
      · exact no_calls (c3 (by simp)) e he) hk (k := k) (by
        rcases hkk with rfl | ⟨o, rfl, ho⟩
        · exact rfl
        · exact .inl rfl)
    simpa using this
  · exact ⟨[.sig t g (.called tk sl a), .posted t g sl a] ++ es.map (.sig t g), by simp [hlog]⟩

theorem inv_iter {s s' : State} (h : Inv s) (hu : s.ub = false) {t : Tid} {g : SigId} {b : Nat} {rest : List Frame} (hr : s.stk t = .notifying g b :: rest)
    (hs : body s (.iter t) = some s') : Inv s' := by
  have hC := h.core
  have hSt := h.stack hu
  have hcl : CallsOk false s.log := hu ▸ hC.calls
  simp only [body, hr] at hs
  cases h0 : sigStep s t g .iter with
  | none => rw [h0] at hs; cases hs
  | some s1 =>
    rw [h0] at hs
    obtain ⟨x, es, h1, h2, -, rfl⟩ := sigStep_spec h0
    have hS1 := hC.sound.moved (t := t) h1 h2 rfl
    have hR1 := hC.runs.sig t g es
    have hG1 := hC.gone.sig t g es
    have hH1 := hist_sig hC.hist t g es
    have hA1 : Aware (upd s.sigs g x) := (h.aware hu).moved h1 (.inl trivial)
    simp only [upd_same] at hs
    rcases Sig.iter_cases h1 with ⟨he, hl⟩ | ⟨a, i, he, hl⟩ | ⟨a, i, tk, sl, he, hl, hmem, hsl⟩
    · have : es = [.emissionDone] := by rw [hl] at h2; exact (List.append_cancel_left h2).symm
      subst this
      rw [he] at hs
      cases hs
      refine ⟨⟨hS1, hR1.popNotify hr, hG1, hH1, hcl.more _ _ (by simp [isCall])⟩, fun _ => hA1, fun _ => ?_⟩
      exact stk_upd hSt (stk_done (hr ▸ hSt t))
    · have : es = [] := by
        rw [hl] at h2
        exact (List.append_cancel_left (as := (s.sigs g).log) (by simpa using h2)).symm
      subst this
      rw [he] at hs
      cases hs
      refine ⟨⟨hS1, hR1, hG1, hH1, by simpa using hcl.more (s.ub || x.ub) [] (by simp)⟩, fun _ => hA1, fun _ => ?_⟩
      simpa using hSt
    · have : es = [.called tk sl a] := by rw [hl] at h2; exact (List.append_cancel_left h2).symm
      subst this
      rw [he] at hs
      simp only [List.map_cons, List.map_nil] at hS1 hR1 hG1 hH1 hs
      have hIx : Sig.Inv (upd s.sigs g x g) := hS1.inv g
      rw [upd_same] at hIx
      have hlt : sl < (upd s.sigs g x g).nextSlot := by
        rw [upd_same]; exact hIx.fresh _ (Sig.mem_liveOf.2 hmem)
      have hk1 := hS1.made g sl hlt
      have hk : Is s.log g sl (s.kinds g sl) := by
        obtain ⟨t', ht⟩ := hk1
        exact ⟨t', by simpa using ht⟩
      have hstk1 : ∀ es, ∀ t, Stk (s.log ++ es) t none (s.stk t) := fun es t => (hSt t).more es
      have aband : ∀ k, s.kinds g sl = k → (∀ l, Follows true s.log l t g sl a k) →
          ∀ {s' : State}, abandon { s with sigs := upd s.sigs g x, ub := s.ub || x.ub, log := s.log ++ [.sig t g (.called tk sl a)] } t g sl = some s' → Inv s' := by
        intro k hkk hf s' hs'
        obtain ⟨hub, y, fs, hn, rfl, hSd⟩ := abandon_spec (a := a) (i := i) (tk := tk) (by simpa only [upd_same] using hIx) (hA1 g) (hS1.shut g) (by simpa only [upd_same] using he) (by simpa only [upd_same] using hmem) hs'
        refine ⟨⟨hSd _ hS1, hR1.sig t g fs, hG1.sig t g fs, hist_sig hH1 t g fs, ?_⟩, by simp, by simp⟩
        have := hcl.called true (t := t) (tk := tk) (fs.map (.sig t g)) (no_calls hn) (hkk ▸ hk) (hf _)
        simpa using this
      have hgone : ∀ o, ¬ alive { s with sigs := upd s.sigs g x, ub := s.ub || x.ub, log := s.log ++ [.sig t g (.called tk sl a)] } o = true → Ev.objGone o ∈ s.log := by
        intro o ho
        rw [hC.gone o]
        simp only [alive] at ho
        exact Bool.eq_false_iff.2 ho
      have top : ∀ z, (s.stk t).head? = some z → ∀ g sl h' a, z ≠ .fwd g sl h' a := by rw [hr]; intro z hz; simp at hz; subst hz; simp
      cases hkk : s.kinds g sl with
      | plain =>
        simp only [start, hkk] at hs
        cases hs
        have hrun := Runs.calls (o := none) (a := a) hS1 hR1 hr (hkk ▸ hk1)
        refine ⟨⟨hS1.still _ (by simp [Net.still]), hrun, hG1.more _ (by simp), hH1.one (.inl ⟨hkk ▸ hk1, just_called⟩), ?_⟩, fun _ => hA1, fun _ => ?_⟩
        · have := hcl.called (s.ub || x.ub) (t := t) (tk := tk) [.ran t g sl a] (by simp [isCall]) (k := .plain) (sl := sl) (a := a) (g := g) (hkk ▸ hk) rfl
          simpa using this
        · have := stk_upd (es := [.sig t g (.called tk sl a), Ev.ran t g sl a]) (st := .user g sl a none :: .notifying g b :: rest) (t := t) hSt
            (hr ▸ (hstk1 [.sig t g (.called tk sl a), Ev.ran t g sl a] t).push (.user g sl a none) top trivial)
          simpa using this
      | queued =>
        simp only [start, hkk] at hs
        obtain ⟨c1, c2, c3, es, c4⟩ := core_posts (s := s) (s1 := { s with sigs := upd s.sigs g x, ub := s.ub || x.ub, log := s.log ++ [.sig t g (.called tk sl a)] }) (k := .queued) (hkk ▸ hk) (.inl rfl) hcl rfl hS1 hR1 hG1 hH1 hs
        refine ⟨c1, fun _ => c2 hA1, fun _ => ?_⟩
        rw [c3, c4]; exact hstk1 es
      | tracked o =>
        simp only [start, hkk] at hs
        split at hs
        · next hal =>
          cases hs
          have hrun := Runs.calls (o := some o) (a := a) hS1 hR1 hr (hkk ▸ hk1)
          have hgo : Ev.objGone o ∉ s.log ++ [.sig t g (.called tk sl a)] := by rw [hG1 o]; intro hx; simp only [alive] at hal; rw [hx] at hal; cases hal
          refine ⟨⟨hS1.still _ (by simp [Net.still]), hrun, ?_, hH1.one (.inr (.inl ⟨o, hkk ▸ hk1, hgo, just_called⟩)), ?_⟩, fun _ => hA1, fun _ => ?_⟩
          · have : Gone s.owned ((t, g, sl, o) :: s.active) (s.log ++ [.sig t g (.called tk sl a)]) := by
              intro o'
              rw [hG1 o']
              by_cases e : o' = o
              · subst e
                simp only [alive] at hal
                rw [hal]; simp
              · simp [Ne.symm e]
            exact this.more _ (by simp)
          · have := hcl.called (s.ub || x.ub) (t := t) (tk := tk) [.ran t g sl a] (by simp [isCall]) (k := .tracked o) (sl := sl) (a := a) (g := g) (hkk ▸ hk) (.inl rfl)
            simpa using this
          · have := stk_upd (es := [.sig t g (.called tk sl a), Ev.ran t g sl a]) (st := .user g sl a (some o) :: .notifying g b :: rest) (t := t) hSt
              (hr ▸ (hstk1 [.sig t g (.called tk sl a), Ev.ran t g sl a] t).push (.user g sl a (some o)) top trivial)
            simpa using this
        · next hal =>
          refine aband _ hkk (fun l => .inr ⟨?_, rfl⟩) hs
          exact hgone o hal
      | trackedQueued o =>
        simp only [start, hkk] at hs
        split at hs
        · next hal =>
          have hgo : Ev.objGone o ∉ s.log := by rw [hC.gone o]; intro hx; simp only [alive] at hal; rw [hx] at hal; cases hal
          obtain ⟨c1, c2, c3, es, c4⟩ := core_posts (s := s) (s1 := { s with sigs := upd s.sigs g x, ub := s.ub || x.ub, log := s.log ++ [.sig t g (.called tk sl a)] }) (k := .trackedQueued o) (hkk ▸ hk) (.inr ⟨o, rfl, hgo⟩) hcl rfl hS1 hR1 hG1 hH1 hs
          refine ⟨c1, fun _ => c2 hA1, fun _ => ?_⟩
          rw [c3, c4]; exact hstk1 es
        · next hal =>
          refine aband _ hkk (fun l => .inr ⟨?_, rfl⟩) hs
          exact hgone o hal
      | forward h' =>
        simp only [start, hkk] at hs
        split at hs
        · next hal =>
          cases hs
          have hnd : ∀ t', Ev.destroyed t' h' ∉ s.log ++ [.sig t g (.called tk sl a)] := by
            intro t' ht
            have := (hS1.dead h').2 ⟨t', ht⟩
            rw [this] at hal; cases hal
          refine ⟨⟨hS1.still _ (by simp [Net.still]), ?_, hG1.more _ (by simp), hH1.one ⟨hkk ▸ hk1, just_called, hnd⟩, ?_⟩, fun _ => hA1, fun _ => ?_⟩
          · refine (hR1.swap ?_ ?_ ?_).quiet' _ (by simp [Net.quiet]) (by simp)
            · intro f hf
              rcases List.mem_cons.1 hf with rfl | hf
              · trivial
              · rcases List.mem_cons.1 hf with rfl | hf
                · exact (hkk ▸ hk1 : Is _ g sl (.forward h'))
                · exact hR1.frames t f (by rw [hr]; exact hf)
            · intro g' sl' a'; rw [hr]; simp [runsF]
            · intro g' sl' a'; rw [hr]; simp [holds]
          · have := hcl.called (s.ub || x.ub) (t := t) (tk := tk) [.forward t g sl h' a] (by simp [isCall]) (k := .forward h') (sl := sl) (a := a) (g := g) (hkk ▸ hk) (.inl rfl)
            simpa using this
          · have := stk_upd (es := [.sig t g (.called tk sl a), Ev.forward t g sl h' a]) (st := .wants h' (.emit a) :: .fwd g sl h' a :: .notifying g b :: rest) (t := t) hSt
              ⟨trivial, ⟨s.log ++ [.sig t g (.called tk sl a)], [], by simp, rfl, rfl⟩, trivial, by have := hstk1 [.sig t g (.called tk sl a), Ev.forward t g sl h' a] t; rw [hr] at this; exact this.2⟩
            simpa using this
        · next hal =>
          refine aband _ hkk (fun l => .inr ⟨?_, rfl⟩) hs
          have hd : (upd s.sigs g x h').alive = false := by simpa using hal
          obtain ⟨t', ht⟩ := (hS1.dead h').1 hd
          exact ⟨t', by simpa using ht⟩

theorem any_erase {l : List (Tid × SigId × SlotId × Obj)} {y : Tid × SigId × SlotId × Obj} {o : Obj} (h : o ≠ y.2.2.2) : ((l.erase y).any fun x => x.2.2.2 == o) = l.any fun x => x.2.2.2 == o := by
  induction l with
  | nil => rfl
  | cons z l ih =>
    rw [List.erase_cons]
    split
    · next e =>
      have : z = y := by simpa using e
      subst this
      simp [Ne.symm h]
    · simp [ih]

theorem returned_ok {active stk jobs log} (h : Runs active stk jobs log) {t : Tid} {g : SigId} {sl : SlotId} {a : Nat} {f : Frame} (hf : f ∈ stk t) (hr : runsF g sl a f = true) :
    log.count (.returned t g sl a) < log.count (.ran t g sl a) := by
  have := h.runs t g sl a
  have : 0 < (stk t).countP (runsF g sl a) := List.countP_pos_iff.2 ⟨f, hf, hr⟩
  omega

/-- A function returns and unlocks its object. -/
theorem core_unlock {s : State} (h : Core s) {t : Tid} {g : SigId} {sl : SlotId} {a : Nat} {o : Option Obj} {rest : List Frame} (hr : s.stk t = .user g sl a o :: rest) (hu : s.ub = false) :
    Core (unlock { s with stk := upd s.stk t rest, log := s.log ++ [.returned t g sl a] } t g sl o) ∧
      ∃ es, (unlock { s with stk := upd s.stk t rest, log := s.log ++ [.returned t g sl a] } t g sl o).log = s.log ++ es := by
  have hcl : CallsOk false s.log := hu ▸ h.calls
  have hev : EvOk s.log (.returned t g sl a) := returned_ok h.runs (f := .user g sl a o) (by rw [hr]; simp) (by simp [runsF])
  have hS : Sound s.sigs s.kinds (s.log ++ [.returned t g sl a]) := h.sound.still _ (by simp [Net.still])
  cases o with
  | none =>
    refine ⟨⟨hS, h.runs.returns hr s.active (.inl ⟨.inr rfl, rfl⟩), h.gone.more _ (by simp), h.hist.one hev, hcl.more _ _ (by simp [isCall])⟩, [.returned t g sl a], rfl⟩
  | some o =>
    have hact : (t, g, sl, o) ∈ s.active := by
      have := h.runs.act t g sl o
      have : 0 < (s.stk t).countP (holds g sl o) := List.countP_pos_iff.2 ⟨.user g sl a (some o), by rw [hr]; simp, by simp [holds]⟩
      exact List.count_pos_iff.1 (by omega)
    have hal : (s.owned o || s.active.any fun x => x.2.2.2 == o) = true := by
      rw [List.any_eq_true.2 ⟨_, hact, by simp⟩]; simp
    have hR := h.runs.returns hr (s.active.erase (t, g, sl, o)) (.inr ⟨o, rfl, rfl⟩)
    have hG := (h.gone.more [.returned t g sl a] (by simp)).less (owned' := s.owned) (active' := s.active.erase (t, g, sl, o)) o hal
      (by intro o' ho; rw [any_erase (by simpa using ho)])
    have hlog : ∀ e ∈ (if alive { s with stk := upd s.stk t rest, log := s.log ++ [.returned t g sl a], active := s.active.erase (t, g, sl, o) } o = true then [] else [Ev.objGone o]), e = .objGone o := by
      intro e he; split at he <;> simp at he; exact he
    have hH : Hist EvOk (s.log ++ [.returned t g sl a] ++ (if alive { s with stk := upd s.stk t rest, log := s.log ++ [.returned t g sl a], active := s.active.erase (t, g, sl, o) } o = true then [] else [Ev.objGone o])) := by
      split
      · simpa using h.hist.one hev
      · next hna =>
        refine (h.hist.one hev).one ⟨?_, ?_⟩
        · rw [(h.gone.more [.returned t g sl a] (by simp)) o, hal]; simp
        · intro g' sl' hk t' a'
          refine idle_runs hS hR ?_ hk t' a'
          simp only [alive] at hna
          have := Bool.eq_false_iff.2 hna
          simp only [Bool.or_eq_false_iff] at this
          exact this.2
    refine ⟨⟨?_, ?_, hG, hH, ?_⟩, _, by simp only [unlock]; rw [List.append_assoc]⟩
    · exact hS.still _ (by intro e he; rw [hlog e he]; rfl)
    · exact hR.quiet' _ (by intro e he; rw [hlog e he]; rfl) (by intro e he; rw [hlog e he]; simp)
    · have := hcl.more s.ub ([.returned t g sl a] ++ (if alive { s with stk := upd s.stk t rest, log := s.log ++ [.returned t g sl a], active := s.active.erase (t, g, sl, o) } o = true then [] else [Ev.objGone o])) (by
        intro e he
        rcases List.mem_append.1 he with he | he
        · simp at he; subst he; rfl
        · rw [hlog e he]; rfl)
      rwa [← List.append_assoc] at this

theorem unlock_same (s : State) (t g sl o) : (unlock s t g sl o).stk = s.stk ∧ (unlock s t g sl o).sigs = s.sigs ∧ (unlock s t g sl o).ub = s.ub := by
  cases o <;> exact ⟨rfl, rfl, rfl⟩

theorem inv_ret {s s' : State} (h : Inv s) (hu : s.ub = false) {t : Tid} (hs : body s (.ret t) = some s') : Inv s' := by
  have hC := h.core
  have hSt := h.stack hu
  have hcl : CallsOk false s.log := hu ▸ hC.calls
  simp only [body] at hs
  split at hs
  · next g sl a o rest hr =>
    obtain ⟨hc, es, hl⟩ := core_unlock hC hr hu
    obtain ⟨u1, u2, u3⟩ := unlock_same { s with stk := upd s.stk t rest, log := s.log ++ [.returned t g sl a] } t g sl o
    have hcore := hc.sig (u3.trans hu) hs rfl (by simp)
    obtain ⟨x, fs, h1, h2, h3, rfl⟩ := sigStep_spec hs
    refine ⟨hcore, fun _ => ?_, fun _ => ?_⟩
    · simp only [u2]
      rw [u2] at h1
      exact (h.aware hu).moved h1 (.inl trivial)
    · simp only [u1, hl, List.append_assoc]
      exact stk_upd hSt ((hr ▸ hSt t : Stk _ _ _ _).pop (by simp) (by simp) _)
  · next g sl h' a rest hr =>
    have hf : Stk s.log t none (.fwd g sl h' a :: rest) := hr ▸ hSt t
    have hc : Core { s with stk := upd s.stk t rest, log := s.log ++ [.forwarded t g sl h' a] } := by
      refine ⟨hC.sound.still _ (by simp [Net.still]), ?_, hC.gone.more _ (by simp), hC.hist.one hf.1, by simpa [hu] using hcl.more s.ub _ (by simp [isCall])⟩
      refine (hC.runs.swap ?_ ?_ ?_).quiet' _ (by simp [Net.quiet]) (by simp)
      · intro f hf; exact hC.runs.frames t f (by rw [hr]; exact List.mem_cons_of_mem _ hf)
      · intro g' sl a; rw [hr, List.countP_cons]; simp [runsF]
      · intro g' sl a; rw [hr, List.countP_cons]; simp [holds]
    have hcore := hc.sig hu hs rfl (by simp)
    obtain ⟨x, fs, h1, h2, h3, rfl⟩ := sigStep_spec hs
    refine ⟨hcore, fun _ => (h.aware hu).moved h1 (.inl trivial), fun _ => ?_⟩
    simp only [List.append_assoc]
    exact stk_upd hSt (hf.pop (by simp) (by simp) _)
  · next g sl a rest hr =>
    cases hs
    refine ⟨⟨hC.sound.still _ (by simp [Net.still]), hC.runs.returns hr s.active (.inl ⟨.inl rfl, rfl⟩), hC.gone.more _ (by simp), hC.hist.one ?_, hcl.more _ _ (by simp [isCall])⟩, h.aware, fun _ => ?_⟩
    · exact returned_ok hC.runs (f := .job g sl a) (by rw [hr]; simp) (by simp [runsF])
    · exact stk_upd hSt ((hr ▸ hSt t : Stk _ _ _ _).pop (by simp) (by simp) _)
  · cases hs

theorem inv_release {s s' : State} (h : Inv s) (hu : s.ub = false) {o : Obj} (hs : body s (.release o) = some s') : Inv s' := by
  have hC := h.core
  have hSt := h.stack hu
  have hcl : CallsOk false s.log := hu ▸ hC.calls
  simp only [body] at hs
  split at hs
  · next ho =>
    cases hs
    have hal : (s.owned o || s.active.any fun x => x.2.2.2 == o) = true := by rw [ho]; rfl
    have hlog : ∀ e ∈ (if alive { s with owned := upd s.owned o false } o = true then [] else [Ev.objGone o]), e = .objGone o := by
      intro e he; split at he <;> simp at he; exact he
    have hG := hC.gone.less (owned' := upd s.owned o false) (active' := s.active) o hal (by intro o' ho'; rw [upd_other _ _ ho'])
    refine ⟨⟨?_, ?_, hG, ?_, ?_⟩, h.aware, fun _ => ?_⟩
    · exact hC.sound.still _ (by intro e he; rw [hlog e he]; rfl)
    · exact hC.runs.quiet' _ (by intro e he; rw [hlog e he]; rfl) (by intro e he; rw [hlog e he]; simp)
    · split
      · simpa using hC.hist
      · next hna =>
        refine hC.hist.one ⟨?_, ?_⟩
        · rw [hC.gone o, hal]; simp
        · intro g' sl' hk t' a'
          refine idle_runs hC.sound hC.runs ?_ hk t' a'
          simp only [alive] at hna
          have := Bool.eq_false_iff.2 hna
          simp only [Bool.or_eq_false_iff] at this
          exact this.2
    · exact hcl.more _ _ (by intro e he; rw [hlog e he]; rfl)
    · intro t'; exact (hSt t').more _
  · cases hs

theorem inv_runJob {s s' : State} (h : Inv s) (hu : s.ub = false) {t : Tid} {k : Nat} (hs : body s (.runJob t k) = some s') : Inv s' := by
  have hC := h.core
  have hSt := h.stack hu
  have hcl : CallsOk false s.log := hu ▸ hC.calls
  simp only [body] at hs
  split at hs
  · next g sl a hj =>
    split at hs
    · next hcan =>
      cases hs
      refine ⟨⟨hC.sound.still _ (by simp [Net.still]), hC.runs.execs hj, hC.gone.more _ (by simp), hC.hist.one ?_, hcl.more _ _ (by simp [isCall])⟩, h.aware, fun _ => ?_⟩
      · have hm := List.mem_of_getElem? hj
        have hb := hC.runs.posts _ hm
        refine .inr (.inr ⟨hb, ?_⟩)
        have := hC.runs.post g sl a hb
        have : 0 < s.jobs.count (g, sl, a) := List.count_pos_iff.2 hm
        omega
      · exact stk_upd hSt (((hSt t).more _).push (.job g sl a) (canCall_top hcan) trivial)
    · cases hs
  · cases hs

theorem inv_step {s s' : State} {a : Act} (h : Inv s) (hs : step s a = some s') : Inv s' := by
  unfold step at hs
  split at hs
  · cases hs
  · next hu =>
    have hu : s.ub = false := by simpa using hu
    cases a with
    | call t g w =>
      simp only [body] at hs
      split at hs
      · next hc => cases hs; exact inv_call h hu hc.1
      · cases hs
    | enter t =>
      simp only [body] at hs
      split at hs
      · next g w rest hr =>
        split at hs
        · cases w with
          | emit a => exact inv_emit h hu hr hs
          | connect k => exact inv_connect h hu hr hs
          | op a => exact inv_op h hu hr hs
        · cases hs
      · cases hs
    | iter t =>
      have hs0 := hs
      simp only [body] at hs
      split at hs
      · next g a rest hr => exact inv_iter h hu hr hs0
      · cases hs
    | ret t => exact inv_ret h hu hs
    | release o => exact inv_release h hu hs
    | runJob t k => exact inv_runJob h hu hs
    | dropJob k =>
      simp only [body] at hs
      split at hs
      · cases hs
        exact ⟨⟨h.core.sound, h.core.runs.drops k, h.core.gone, h.core.hist, h.core.calls⟩, h.aware, h.stack⟩
      · cases hs

theorem inv_init : Inv init := by
  refine ⟨⟨⟨?_, ?_, ?_, ?_, ?_, ?_⟩, ⟨?_, ?_, ?_, ?_, ?_⟩, ?_, Hist.nil, ?_⟩, ?_, ?_⟩
  · intro g; exact ⟨[], rfl⟩
  · intro g; rfl
  · rintro g sl k ⟨t, ht⟩; simp [init] at ht
  · intro g sl hl; exact absurd hl (Nat.not_lt_zero _)
  · intro g; simp [init, Sig.init]
  · intro g; exact ⟨by simp [init, Sig.init], rfl⟩
  · intro t f hf; simp [init] at hf
  · intro j hj; simp [init] at hj
  · intro t g sl a; rfl
  · intro t g sl o; rfl
  · intro g sl a; simp [init]
  · intro o; simp [init]
  · intro l t g tk sl a m hl; simp [init] at hl
  · intro _ g p hp; simp [init, Sig.init] at hp
  · intro _ t; trivial

theorem inv_run {as : List Act} {s s' : State} (h : Inv s) (hr : run s as = some s') : Inv s' := by
  induction as generalizing s with
  | nil => cases hr; exact h
  | cons a as ih =>
    simp only [run] at hr
    cases hs : step s a with
    | none => rw [hs] at hr; cases hr
    | some s1 => rw [hs] at hr; exact ih (inv_step h hs) hr

end Maf.Net
