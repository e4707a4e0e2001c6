import Verif.Lemmas.ProcessorHistory
namespace Maf.Proc
open Sig (WithinEmission)

/-! ### Dispatches -/

theorem within_append {A : Type} {a b : List (Sig.Ev A)} (ha : WithinEmission a) (hb : WithinEmission b) : WithinEmission (a ++ b) := by
  intro e he
  rcases List.mem_append.1 he with h | h
  · exact ha e h
  · exact hb e h

/-- The history grew from `l` to `l'` within an emission of `m` on `g`. -/
structure KC (g : SigId) (m : Msg) (l l' : List Ev) (f' : SigId → Sig.State Msg) : Prop where
  grow : ∃ es, l' = l ++ es ∧ WithinEmission (sigLog g es)
  arg : emArg (f' g) = some m

theorem KC.refl {g : SigId} {m : Msg} {l : List Ev} {f : SigId → Sig.State Msg} (h : emArg (f g) = some m) : KC g m l l f :=
  ⟨⟨[], by simp, by simp [sigLog, WithinEmission]⟩, h⟩

theorem KC.app {g : SigId} {m : Msg} {l l' es : List Ev} {f : SigId → Sig.State Msg} (h : KC g m l l' f) (he : ∀ e ∈ es, e.isSig = false) :
    KC g m l (l' ++ es) f := by
  obtain ⟨⟨xs, h1, h2⟩, h3⟩ := h
  refine ⟨⟨xs ++ es, by simp [h1], ?_⟩, h3⟩
  rw [sigLog_append, sigLog_nosig he, List.append_nil]; exact h2

theorem emArg_of {A : Type} {s s' : Sig.State A} (h : s'.emission = s.emission) : emArg s' = emArg s := by simp [emArg, h]

theorem KC.upd {g h : SigId} {m : Msg} {l l' : List Ev} {f : SigId → Sig.State Msg} {t : Nat} {a : Sig.Act Msg} {g' : Sig.State Msg} {es : List (Sig.Ev Msg)}
    (hk : KC g m l l' f) (hg : Sig.step (f h) a = some g') (he : g'.log = (f h).log ++ es)
    (ha : h ≠ g ∨ ((∀ m, a ≠ .emit m) ∧ a ≠ .iter)) : KC g m l (l' ++ es.map (.sig t h)) (upd f h g') := by
  obtain ⟨⟨xs, h1, h2⟩, h3⟩ := hk
  by_cases hh : h = g
  · subst hh
    replace ha := ha.resolve_left (fun e => e rfl)
    have hq : Quiet es ∧ emArg g' = emArg (f h) := by
      by_cases hr : a = .ret
      · subst hr
        obtain ⟨⟨es', h5, h6⟩, h7, -⟩ := sig_ret hg
        rw [he] at h5; cases List.append_cancel_left h5
        exact ⟨h6, h7⟩
      · obtain ⟨es', h5, h6, h7⟩ := sig_other hg ⟨ha.1, ha.2, hr⟩
        rw [he] at h5; cases List.append_cancel_left h5
        exact ⟨h6, emArg_of h7⟩
    refine ⟨⟨xs ++ es.map (.sig t h), by simp [h1], ?_⟩, ?_⟩
    · rw [sigLog_append, sigLog_sig, if_pos rfl]; exact within_append h2 hq.1.within
    · rw [upd_same, hq.2]; exact h3
  · refine ⟨⟨xs ++ es.map (.sig t h), by simp [h1], ?_⟩, ?_⟩
    · rw [sigLog_append, sigLog_sig, if_neg hh]; simpa using h2
    · rw [upd_other (fun e => hh e.symm)]; exact h3

theorem KC.sigStep {g h : SigId} {m : Msg} {l : List Ev} {s s' : State} {t : Nat} {a : Sig.Act Msg} (hs : sigStep s t h a = some s')
    (hk : KC g m l s.log s.sigs) (ha : h ≠ g ∨ ((∀ m, a ≠ .emit m) ∧ a ≠ .iter)) : KC g m l s'.log s'.sigs := by
  obtain ⟨g', es, h1, h2, rfl⟩ := sigStep_spec hs
  exact hk.upd h1 h2 ha

theorem KC.release {g h : SigId} {m : Msg} {l : List Ev} {s : State} {t : Nat}
    (hk : KC g m l s.log s.sigs) : KC g m l (release s t h).log (release s t h).sigs := by
  rcases release_spec s t h with e | ⟨g', es, h1, h2, _, e⟩
  · rw [e]; exact hk
  · rw [e]; exact hk.upd h1 h2 (Or.inr ⟨by simp, by simp⟩)

/-- Nobody disturbs an emission in progress, except its own loop. -/
theorem keep {s s' : State} {a : Act} {g : SigId} {m : Msg} (hs : step s a = some s') (hu : s'.ub = false)
    (hg : emArg (s.sigs g) = some m) (hit : ∀ t d m' rest, a = .iter t → s.stk t ≠ .notifying d m' g :: rest)
    (hop : ∀ t g' b rest, s.stk t = .sigReq g' b :: rest → isHandleOp b = true) :
    KC g m s.log s'.log s'.sigs ∧ s'.emitter g = s.emitter g := by
  replace hs := (step_body hs).2
  cases a
  case startNotify t =>
    simp only [body] at hs
    split at hs
    · next d m' g' rest hst =>
      split at hs
      · cases hs
      · split at hs
        · cases hs
          simp only [endDispatch, emitLog, release_emitter]
          exact ⟨((KC.release (KC.app (KC.refl hg) (by simp [Ev.isSig]))).app (by simp [Ev.isSig])), trivial⟩
        · next hne =>
          by_cases hgg : g' = g
          · subst hgg
            obtain ⟨g2, es, h1, h2, rfl⟩ := sigStep_spec hs
            rcases sig_emit h1 hne with ⟨_, h3, _⟩ | ⟨h3, _⟩
            · simp [h3] at hu
            · simp [emArg] at hg; obtain ⟨e, he, _⟩ := hg
              have : (s.sigs g').emission = none := h3
              rw [he] at this; cases this
          · obtain ⟨g2, es, h1, h2, rfl⟩ := sigStep_spec hs
            refine ⟨KC.upd (KC.app (KC.refl hg) (by simp [Ev.isSig])) h1 h2 (Or.inl hgg), ?_⟩
            simp [upd_other (fun e => hgg e.symm)]
    · cases hs
  case iter t =>
    simp only [body] at hs
    split at hs
    · next d m' g' rest hst =>
      have hgg : g' ≠ g := by rintro rfl; exact hit t d m' rest rfl hst
      split at hs
      · cases hs
      · next s1 hs1 =>
        have hk : KC g m s.log s1.log s1.sigs := KC.sigStep hs1 (KC.refl hg) (Or.inl hgg)
        have hem : s1.emitter = s.emitter := by obtain ⟨_, _, _, rfl⟩ := sigStep_eq hs1; rfl
        split at hs
        · cases hs
          simp only [endDispatch, emitLog, release_emitter]
          exact ⟨(KC.release (hk.app (by simp [Ev.isSig]))).app (by simp [Ev.isSig]),
            by rw [upd_other (fun e => hgg e.symm), hem]⟩
        · split at hs <;> cases hs <;> exact ⟨hk, by simp only [setStk, hem]⟩
    · cases hs
  all_goals simp only [body, setStk, emitLog, endDispatch, endLoop] at hs
  all_goals (repeat' split at hs)
  all_goals (first | (cases hs; done) | cases hs | skip)
  all_goals (refine ⟨?_, ?_⟩)
  all_goals (try (first | rfl | (obtain ⟨_, _, _, rfl⟩ := sigStep_eq hs; rfl) | (simp only [release_emitter]; done)))
  all_goals
    repeat first
    | exact KC.refl hg
    | apply KC.release
    | apply KC.app
    | refine KC.sigStep hs ?_ (Or.inr ?_)
  all_goals first
    | (simp [Ev.isSig]; done)
    | (intro e he; split at he <;> simp at he; subst he; rfl)
    | (simp; intro e he; rcases he with ⟨_, _, rfl⟩ | rfl <;> rfl)
    | (refine ⟨?_, ?_⟩ <;> simp; done)
    | (have := hop _ _ _ _ ‹s.stk _ = _›; constructor
       · rintro m rfl; cases this
       · rintro rfl; cases this)
    | skip

/-- The handlers objects on which a thread is emitting. -/
def notifs : List Frame → List SigId
  | [] => []
  | .notifying _ _ g :: r => g :: notifs r
  | _ :: r => notifs r

/-- The dispatches a thread is in. -/
def dids : List Frame → List Nat
  | [] => []
  | .notifying d _ _ :: r => d :: dids r
  | .willNotify d _ _ :: r => d :: dids r
  | _ :: r => dids r

theorem mem_notifs {l : List Frame} {d : Nat} {m : Msg} {g : SigId} (h : Frame.notifying d m g ∈ l) : g ∈ notifs l := by
  induction l with
  | nil => cases h
  | cons f l ih =>
    rcases List.mem_cons.1 h with rfl | h
    · simp [notifs]
    · have := ih h; cases f <;> simp [notifs, this]

theorem notifs_mem {l : List Frame} {g : SigId} (h : g ∈ notifs l) : ∃ d m, Frame.notifying d m g ∈ l := by
  induction l with
  | nil => cases h
  | cons f l ih =>
    cases f
    case notifying d m g' =>
      rcases List.mem_cons.1 h with rfl | h
      · exact ⟨d, m, by simp⟩
      · obtain ⟨d, m, h⟩ := ih h; exact ⟨d, m, by simp [h]⟩
    all_goals (obtain ⟨d, m, h⟩ := ih h; exact ⟨d, m, by simp [h]⟩)

theorem mem_dids {l : List Frame} {d : Nat} {m : Msg} {g : SigId} (h : Frame.notifying d m g ∈ l) : d ∈ dids l := by
  induction l with
  | nil => cases h
  | cons f l ih =>
    rcases List.mem_cons.1 h with rfl | h
    · simp [dids]
    · have := ih h; cases f <;> simp [dids, this]

/-- Handle operations only. -/
def Ops (stk : Tid → List Frame) : Prop := ∀ t g b rest, stk t = .sigReq g b :: rest → isHandleOp b = true

theorem Ops_step {s s' : State} {a : Act} (hw : ∀ t, wf (s.stk t) = true) (h : Ops s.stk) (hs : step s a = some s') : Ops s'.stk := by
  obtain ⟨hoth, -⟩ := step_other hs
  intro t g b rest hst'
  by_cases ht : t = a.tid
  · subst ht
    clear hoth
    have top : ∀ {t f rest}, s.stk t = f :: rest → fits f rest = true := wf_top hw
    replace h := h a.tid
    replace hs := (step_body hs).2
    peel
    all_goals simp only [Act.tid] at h hst'
    all_goals try exact h _ _ _ hst'
    all_goals simp only [release_stk, upd_same] at hst'
    all_goals (try have hf := top ‹s.stk _ = _›)
    all_goals (try simp only [fits] at hf)
    all_goals first
      | (cases hst'; done)
      | (rw [hst'] at hf; simp [atUser, atLoop, Frame.isUser] at hf; done)
      | skip
    cases hst'; next hh => simp at hh; exact hh.1
  · rw [(hoth t ht).1] at hst'; exact h t g b rest hst'

/-- Dispatch numbers and emissions of a thread are different. -/
structure DN (stk : Tid → List Frame) (n : Nat) : Prop where
  nodup : ∀ t, (dids (stk t)).Nodup
  lt : ∀ t, ∀ d ∈ dids (stk t), d < n

theorem DN_step {s s' : State} {a : Act} (h : DN s.stk s.nextD) (hs : step s a = some s') : DN s'.stk s'.nextD := by
  obtain ⟨hoth, -⟩ := step_other hs
  have hle : s.nextD ≤ s'.nextD := by
    replace hs := (step_body hs).2
    clear hoth
    peel
    all_goals simp
  have key : (dids (s'.stk a.tid)).Nodup ∧ ∀ d ∈ dids (s'.stk a.tid), d < s'.nextD := by
    have h1 := h.nodup a.tid
    have h2 := h.lt a.tid
    clear hoth h hle
    replace hs := (step_body hs).2
    peel
    all_goals simp only [Act.tid] at h1 h2 ⊢
    all_goals try exact ⟨h1, h2⟩
    all_goals (try simp only [release_stk, upd_same, release_nextD])
    all_goals (try have hst := ‹s.stk _ = _›)
    all_goals (try rw [hst] at h1 h2)
    all_goals (try rw [hst])
    all_goals (try simp only [dids, List.nodup_cons, List.mem_cons, forall_eq_or_imp] at h1 h2 ⊢)
    all_goals (try exact ⟨h1, h2⟩)
    all_goals (try exact ⟨h1.2, h2.2⟩)
    all_goals (first
      | (split <;> exact ⟨h1, h2⟩)
      | exact ⟨⟨fun hm => Nat.lt_irrefl _ (h2 _ hm), h1⟩, Nat.lt_succ_self _, fun d hd => Nat.lt_succ_of_lt (h2 d hd)⟩
      | exact ⟨h1, fun d hd => Nat.lt_succ_of_lt (h2 d hd)⟩
      | skip)
  constructor
  · intro t
    by_cases ht : t = a.tid
    · subst ht; exact key.1
    · rw [(hoth t ht).1]; exact h.nodup t
  · intro t d hd
    by_cases ht : t = a.tid
    · subst ht; exact key.2 d hd
    · rw [(hoth t ht).1] at hd; exact Nat.lt_of_lt_of_le (h.lt t d hd) hle

def WShape (t : Tid) (d : Nat) (m : Msg) (g : SigId) (log : List Ev) : Prop :=
  ∃ l1 x, log = l1 ++ .processing t d m (some g) :: x ∧ ∀ e ∈ x, e.tid ≠ some t

def NShape (t : Tid) (d : Nat) (m : Msg) (g : SigId) (log : List Ev) : Prop :=
  ∃ l1 x y w, log = l1 ++ .processing t d m (some g) :: x ++ .emitBegin t d :: y ∧ (∀ e ∈ x, e.tid ≠ some t) ∧
    sigLog g y = .emitted m :: w ∧ WithinEmission w ∧ Ev.processed t d ∉ y ∧ Ev.emitEnd t d ∉ y

theorem NShape.grow {t : Tid} {d : Nat} {m : Msg} {g : SigId} {l es : List Ev} (h : NShape t d m g l)
    (hw : WithinEmission (sigLog g es)) (hp : Ev.processed t d ∉ es) (hp' : Ev.emitEnd t d ∉ es) : NShape t d m g (l ++ es) := by
  obtain ⟨l1, x, y, w, h1, h2, h3, h4, h5⟩ := h
  exact ⟨l1, x, y ++ es, w ++ sigLog g es, by simp [h1], h2, by simp [h3], within_append h4 hw, by simp [h5.1, hp], by simp [h5.2, hp']⟩

/-- Dispatches in progress (while nothing undefined has happened). -/
structure DI (stk : Tid → List Frame) (sigs : SigId → Sig.State Msg) (emitter : SigId → Option Tid) (log : List Ev) : Prop where
  will : ∀ t d m g rest, stk t = .willNotify d m g :: rest → WShape t d m g log
  noti : ∀ t d m g, Frame.notifying d m g ∈ stk t → NShape t d m g log ∧ emArg (sigs g) = some m ∧ emitter g = some t
  ng : ∀ t, (notifs (stk t)).Nodup

/-- The events of `release`. -/
def relEvs (s : State) (t g : Nat) : List (Sig.Ev Msg) :=
  ((release s t g).log.drop s.log.length).filterMap fun | .sig _ _ e => some e | _ => none

theorem release_log_eq (s : State) (t g : Nat) : (release s t g).log = s.log ++ (relEvs s t g).map (.sig t g) := by
  obtain ⟨f, u, es, he⟩ := release_eq s t g
  have : relEvs s t g = es := by
    rw [relEvs, he, List.drop_left]; simp [List.filterMap_map, Function.comp_def]
  rw [this, he]

/-- They are disconnections. -/
theorem relEvs_removed (s : State) (t g : Nat) : ∀ e ∈ relEvs s t g, ∃ k sl, e = .removed k sl := by
  rcases release_spec s t g with h | ⟨g', es, h1, h2, -, h3⟩
  · rw [relEvs, h, List.drop_length]; simp
  · have : relEvs s t g = es := by
      rw [relEvs, h3, List.drop_left]; simp [List.filterMap_map, Function.comp_def]
    rw [this]
    simp only [Sig.step, Sig.body] at h1
    split at h1
    · cases h1
    · split at h1
      · split at h1
        · cases h1
          have : es = [] := by
            have := h2.symm; simpa using this
          subst this; simp
        · cases h1
          have := List.append_cancel_left h2
          subst this
          intro e he
          simp only [List.mem_filterMap] at he
          obtain ⟨x, -, hx⟩ := he
          cases hs : x.slot <;> simp [hs] at hx
          exact ⟨_, _, hx.symm⟩
      · cases h1

/-- Which dispatch ends in a step. -/
theorem ends {s s' : State} {a : Act} (hs : step s a = some s') {t d : Nat} {es : List Ev} (he : s'.log = s.log ++ es)
    (hm : Ev.processed t d ∈ es ∨ Ev.emitEnd t d ∈ es) : t = a.tid ∧ (d = s.nextD ∨
      ∃ m g rest, s.stk t = .willNotify d m g :: rest ∨ s.stk t = .notifying d m g :: rest) := by
  replace hs := (step_body hs).2
  peel
  all_goals (first
    | (rw [List.append_assoc] at he; replace he := List.append_cancel_left he; subst he)
    | (replace he := List.append_cancel_left he; subst he)
    | (have he' : [] = es := List.append_cancel_left (as := s.log) (by simpa using he); subst he')
    | skip)
  all_goals (try (simp at hm; done))
  · simp at hm; obtain ⟨rfl, rfl⟩ := hm; exact ⟨rfl, Or.inl rfl⟩
  · next s1 _ =>
    simp only at he
    rw [release_log_eq, List.append_assoc, List.append_assoc] at he
    replace he := List.append_cancel_left he; subst he
    simp at hm; obtain ⟨rfl, rfl⟩ := hm
    exact ⟨rfl, Or.inr ⟨_, _, _, Or.inl ‹_›⟩⟩
  · simp only at he
    rw [release_log_eq, List.append_assoc, List.append_assoc, List.append_assoc] at he
    replace he := List.append_cancel_left he; subst he
    simp at hm
    obtain ⟨rfl, rfl⟩ := hm
    exact ⟨rfl, Or.inr ⟨_, _, _, Or.inr ‹_›⟩⟩
  · rw [release_log_eq, List.append_assoc] at he
    replace he := List.append_cancel_left he; subst he
    simp at hm
  · rw [release_log_eq, List.append_assoc] at he
    replace he := List.append_cancel_left he; subst he
    simp at hm


theorem at_notifying {s s' : State} {a : Act} {d : Nat} {m : Msg} {g : SigId} {rest : List Frame}
    (hst : s.stk a.tid = .notifying d m g :: rest) (hs : step s a = some s') : a = .iter a.tid := by
  replace hs := (step_body hs).2
  cases a <;> simp only [Act.tid] at hst ⊢ <;> simp [body, canCall, hst, Frame.isUser] at hs

theorem at_will {s s' : State} {a : Act} {d : Nat} {m : Msg} {g : SigId} {rest : List Frame}
    (hst : s.stk a.tid = .willNotify d m g :: rest) (hs : step s a = some s') : a = .startNotify a.tid := by
  replace hs := (step_body hs).2
  cases a <;> simp only [Act.tid] at hst ⊢ <;> simp [body, canCall, hst, Frame.isUser] at hs

/-- All other steps leave the dispatches of the thread alone. -/
theorem other_acts {s s' : State} {a : Act} (hw : ∀ t, wf (s.stk t) = true) (hs : step s a = some s')
    (h1 : ∀ t, a ≠ .find t) (h2 : ∀ t, a ≠ .startNotify t) (h3 : ∀ t, a ≠ .iter t) :
    (∀ d m g, Frame.notifying d m g ∈ s'.stk a.tid → Frame.notifying d m g ∈ s.stk a.tid) ∧
    notifs (s'.stk a.tid) = notifs (s.stk a.tid) ∧ ∀ d m g rest, s'.stk a.tid ≠ .willNotify d m g :: rest := by
  have top : ∀ {t f rest}, s.stk t = f :: rest → fits f rest = true := wf_top hw
  have hwill : ∀ d m g rest, s.stk a.tid ≠ .willNotify d m g :: rest := by
    intro d m g rest hst
    exact h2 _ (at_will hst hs)
  replace hs := (step_body hs).2
  peel
  all_goals simp only [Act.tid] at hwill ⊢
  all_goals try (exact absurd rfl (h1 _))
  all_goals try (exact absurd rfl (h2 _))
  all_goals try (exact absurd rfl (h3 _))
  all_goals try (exact ⟨fun _ _ _ h => h, rfl, hwill⟩)
  all_goals (try simp only [release_stk, upd_same])
  all_goals (try have hst := ‹s.stk _ = _›)
  all_goals (try rw [hst])
  all_goals (try have hf := top ‹s.stk _ = _›)
  all_goals (try simp only [fits] at hf)
  all_goals (refine ⟨fun d m g h => ?_, ?_, fun d m g rest h => ?_⟩)
  all_goals first
    | (cases h; done)
    | (simp [notifs]; done)
    | (simp [h]; done)
    | (simp at h; simp [h]; done)
    | (rw [h] at hf; simp [atLoop, atUser, Frame.isUser] at hf; done)
    | (split at h <;> simp at h <;> simp [h]; done)
    | (split <;> simp [notifs]; done)
    | exact hwill _ _ _ _ h

theorem dids_rest {l : List Frame} {f : Frame} {d : Nat} {m : Msg} {g : SigId} (hn : (dids (f :: l)).Nodup)
    (hf : (∃ m g, f = .willNotify d m g) ∨ ∃ m g, f = .notifying d m g) : Frame.notifying d m g ∉ l := by
  intro hm
  have := mem_dids hm
  rcases hf with ⟨_, _, rfl⟩ | ⟨_, _, rfl⟩ <;> simp [dids] at hn <;> exact hn.1 this

theorem DI_step {s s' : State} {a : Act} (hb : Base s) (hn : DN s.stk s.nextD) (hop : Ops s.stk)
    (h : DI s.stk s.sigs s.emitter s.log) (hs : step s a = some s') (hu : s'.ub = false) :
    DI s'.stk s'.sigs s'.emitter s'.log := by
  obtain ⟨hoth, hlog⟩ := step_other hs
  -- frames that stay
  have stay : ∀ t d m g, Frame.notifying d m g ∈ s.stk t → (∀ u d' m' rest, a = .iter u → s.stk u ≠ .notifying d' m' g :: rest) →
      NShape t d m g s'.log ∧ emArg (s'.sigs g) = some m ∧ s'.emitter g = some t := by
    intro t d m g hf hit
    obtain ⟨h1, h2, h3⟩ := h.noti t d m g hf
    obtain ⟨⟨⟨es, he, hwi⟩, h4⟩, h5⟩ := keep hs hu h2 hit hop
    refine ⟨?_, h4, by rw [h5, h3]⟩
    have hp : ¬ (Ev.processed t d ∈ es ∨ Ev.emitEnd t d ∈ es) := by
     intro hp
     obtain ⟨rfl, hd | ⟨m', g', rest, hst | hst⟩⟩ := ends hs he hp
     · exact Nat.lt_irrefl _ (hd ▸ hn.lt _ d (mem_dids hf))
     · rw [hst] at hf
       rcases List.mem_cons.1 hf with hf | hf
       · cases hf
       · have := hn.nodup a.tid; rw [hst] at this; exact dids_rest this (Or.inl ⟨_, _, rfl⟩) hf
     · rw [hst] at hf
       rcases List.mem_cons.1 hf with hf | hf
       · cases hf; exact hit _ _ _ _ (at_notifying hst hs) hst
       · have := hn.nodup a.tid; rw [hst] at this; exact dids_rest this (Or.inr ⟨_, _, rfl⟩) hf
    rw [he]; exact h1.grow hwi (fun h => hp (Or.inl h)) (fun h => hp (Or.inr h))
  -- other threads
  have others : ∀ t, t ≠ a.tid → (∀ d m g rest, s'.stk t = .willNotify d m g :: rest → WShape t d m g s'.log) ∧
      (∀ d m g, Frame.notifying d m g ∈ s'.stk t → NShape t d m g s'.log ∧ emArg (s'.sigs g) = some m ∧ s'.emitter g = some t) ∧
      (notifs (s'.stk t)).Nodup := by
    intro t ht
    rw [(hoth t ht).1]
    refine ⟨fun d m g rest hst => ?_, fun d m g hf => stay t d m g hf ?_, h.ng t⟩
    · obtain ⟨l1, x, h1, h2⟩ := h.will t d m g rest hst
      obtain ⟨es, he, hes⟩ := hlog
      refine ⟨l1, x ++ es, by rw [he, h1]; simp, fun e hm => ?_⟩
      rcases List.mem_append.1 hm with hm | hm
      · exact h2 e hm
      · rcases hes e hm with h | h <;> rw [h]
        · simp
        · intro e; cases e; exact ht rfl
    · rintro u d' m' rest rfl hst
      have := (h.noti u d' m' g (by rw [hst]; simp)).2.2
      rw [(h.noti t d m g hf).2.2] at this; cases this; exact ht rfl
  -- the thread itself
  have self : (∀ d m g rest, s'.stk a.tid = .willNotify d m g :: rest → WShape a.tid d m g s'.log) ∧
      (∀ d m g, Frame.notifying d m g ∈ s'.stk a.tid → NShape a.tid d m g s'.log ∧ emArg (s'.sigs g) = some m ∧ s'.emitter g = some a.tid) ∧
      (notifs (s'.stk a.tid)).Nodup := by
    by_cases hfind : ∃ t, a = .find t
    · obtain ⟨t, rfl⟩ := hfind
      have st : ∀ d m g, Frame.notifying d m g ∈ s.stk t → _ := fun d m g hf => stay t d m g hf (by simp)
      have hng := h.ng t
      replace hs := (step_body hs).2
      simp only [body] at hs
      simp only [Act.tid]
      split at hs
      · next m0 rest0 hst =>
        rw [hst] at st hng
        split at hs
        · cases hs
        · split at hs
          · cases hs
            simp only [emitLog, setStk, upd_same] at st ⊢
            refine ⟨fun d m g rest h' => ?_, fun d m g hf => st d m g (List.mem_cons_of_mem _ hf), hng⟩
            have := wf_top hb.wf hst
            rw [h'] at this; simp [fits, atLoop] at this
          · next g0 _ =>
            cases hs
            simp only [emitLog, setStk, upd_same] at st ⊢
            refine ⟨fun d m g rest h' => ?_, fun d m g hf => st d m g ?_, hng⟩
            · cases h'; exact ⟨s.log, [], rfl, by simp⟩
            · rcases List.mem_cons.1 hf with hf | hf
              · cases hf
              · exact List.mem_cons_of_mem _ hf
      · cases hs
    by_cases hstart : ∃ t, a = .startNotify t
    · obtain ⟨t, rfl⟩ := hstart
      have st : ∀ d m g, Frame.notifying d m g ∈ s.stk t → _ := fun d m g hf => stay t d m g hf (by simp)
      have hng := h.ng t
      have hs0 := hs
      replace hs := (step_body hs).2
      simp only [body] at hs
      simp only [Act.tid]
      split at hs
      · next d0 m0 g0 rest0 hst =>
        have hwf := wf_top hb.wf hst
        rw [hst] at st hng
        split at hs
        · cases hs
        · split at hs
          · cases hs
            simp only [endDispatch, emitLog, release_stk, release_emitter, upd_same] at st ⊢
            refine ⟨fun d m g rest h' => ?_, fun d m g hf => st d m g (List.mem_cons_of_mem _ hf), hng⟩
            rw [h'] at hwf; simp [fits, atLoop] at hwf
          · next hne =>
            obtain ⟨g', es, h1, h2, rfl⟩ := sigStep_spec hs
            simp only [emitLog, setStk, upd_same] at st h1 h2 hu ⊢
            have hem : (s.sigs g0).emission = none ∧ es = [.emitted m0] ∧ emArg g' = some m0 := by
              rcases sig_emit h1 hne with ⟨_, h3, _⟩ | ⟨h3, h4, h5⟩
              · simp [h3] at hu
              · rw [h2] at h4; exact ⟨h3, List.append_cancel_left h4, h5⟩
            obtain ⟨hem1, rfl, hem2⟩ := hem
            refine ⟨fun d m g rest h' => by simp at h', fun d m g hf => ?_, ?_⟩
            · rcases List.mem_cons.1 hf with hf | hf
              · cases hf
                obtain ⟨l1, x, h3, h4⟩ := h.will t d0 m0 g0 rest0 hst
                refine ⟨⟨l1, x, [.sig t g0 (.emitted m0)], [], by rw [h3]; simp, h4, ?_, by simp [WithinEmission], by simp, by simp⟩, ?_, ?_⟩
                · simp [sigLog]
                · simp only [upd_same]; exact hem2
                · simp
              · exact st d m g (List.mem_cons_of_mem _ hf)
            · simp only [notifs, List.nodup_cons]
              refine ⟨fun hm => ?_, hng⟩
              obtain ⟨d, m, hm⟩ := notifs_mem hm
              have := (h.noti t d m g0 (by rw [hst]; exact List.mem_cons_of_mem _ hm)).2.1
              simp [emArg, hem1] at this
      · cases hs
    by_cases hiter : ∃ t, a = .iter t
    · obtain ⟨t, rfl⟩ := hiter
      have hng := h.ng t
      have hs0 := hs
      replace hs := (step_body hs).2
      simp only [body] at hs
      simp only [Act.tid]
      split at hs
      · next d0 m0 g0 rest0 hst =>
        have hwf := wf_top hb.wf hst
        rw [hst] at hng
        have st : ∀ d m g, Frame.notifying d m g ∈ rest0 → NShape t d m g s'.log ∧ emArg (s'.sigs g) = some m ∧ s'.emitter g = some t := by
          intro d m g hf
          refine stay t d m g (by rw [hst]; exact List.mem_cons_of_mem _ hf) ?_
          rintro u d' m' rest hu' hst'
          cases hu'
          rw [hst] at hst'; cases hst'
          simp only [notifs, List.nodup_cons] at hng
          exact hng.1 (mem_notifs hf)
        split at hs
        · cases hs
        · next s1 hs1 =>
          split at hs
          · cases hs
            simp only [endDispatch, emitLog, release_stk, release_emitter, upd_same] at st ⊢
            simp only [notifs, List.nodup_cons] at hng
            obtain ⟨_, _, _, rfl⟩ := sigStep_eq hs1
            refine ⟨fun d m g rest h' => ?_, fun d m g hf => st d m g hf, hng.2⟩
            rw [h'] at hwf; simp [fits, atLoop] at hwf
          · next e0 hem =>
            obtain ⟨hsh, ha, hemi⟩ := h.noti t d0 m0 g0 (by rw [hst]; simp)
            obtain ⟨g', es, h1, h2, rfl⟩ := sigStep_spec hs1
            simp only [upd_same] at hem
            obtain ⟨m1, hm1, ⟨hx, -⟩ | ⟨h4, es', h5, h6, -⟩⟩ := sig_iter h1
            · rw [hem] at hx; cases hx
            rw [h2] at h5; cases List.append_cancel_left h5
            rw [ha] at hm1; cases hm1
            have htop : NShape t d0 m0 g0 (s.log ++ es.map (.sig t g0)) :=
              hsh.grow (by rw [sigLog_sig, if_pos rfl]; exact h6) (by simp) (by simp)
            split at hs
            · cases hs
              simp only [setStk, upd_same] at st ⊢
              refine ⟨fun d m g rest h' => by simp at h', fun d m g hf => ?_, hng⟩
              rcases List.mem_cons.1 hf with hf | hf
              · cases hf
              · rcases List.mem_cons.1 hf with hf | hf
                · cases hf; exact ⟨htop, by simpa using h4, hemi⟩
                · exact st d m g hf
            · cases hs
              simp only [hst]
              refine ⟨fun d m g rest h' => by simp at h', fun d m g hf => ?_, hng⟩
              rcases List.mem_cons.1 hf with hf | hf
              · cases hf; exact ⟨htop, by simpa using h4, hemi⟩
              · exact st d m g hf
      · cases hs
    · obtain ⟨o1, o2, o3⟩ := other_acts hb.wf hs (fun t e => hfind ⟨t, e⟩) (fun t e => hstart ⟨t, e⟩) (fun t e => hiter ⟨t, e⟩)
      refine ⟨fun d m g rest h' => absurd h' (o3 _ _ _ _), fun d m g hf => stay _ d m g (o1 d m g hf) (fun u d' m' rest e => absurd ⟨u, e⟩ hiter), ?_⟩
      rw [o2]; exact h.ng _
  refine ⟨fun t => ?_, fun t => ?_, fun t => ?_⟩
  all_goals (by_cases ht : t = a.tid)
  · subst ht; exact self.1
  · exact (others t ht).1
  · subst ht; exact self.2.1
  · exact (others t ht).2.1
  · subst ht; exact self.2.2
  · exact (others t ht).2.2

/-! ### The history of dispatches -/

theorem sig_nocall {A : Type} {s s' : Sig.State A} {a : Sig.Act A} {es : List (Sig.Ev A)} (h : Sig.step s a = some s') (ha : a ≠ .iter)
    (he : s'.log = s.log ++ es) : ∀ k sl b, Sig.Ev.called k sl b ∉ es := by
  intro k sl b hm
  by_cases hr : a = .ret
  · subst hr
    obtain ⟨⟨es', h5, h6⟩, -⟩ := sig_ret h
    rw [he] at h5; cases List.append_cancel_left h5
    exact (h6 _ hm).2.2 k sl b rfl
  · by_cases hem : ∃ m, a = .emit m
    · obtain ⟨m, rfl⟩ := hem
      by_cases hne : s.slots = []
      · simp only [Sig.step, Sig.body, hne, if_true] at h
        repeat' split at h
        all_goals cases h
        have : es = [] := by have := he.symm; simpa using this
        subst this; cases hm
      · rcases sig_emit h hne with ⟨-, -, h3⟩ | ⟨-, h3, -⟩
        · rw [he] at h3
          have : es = [] := by simpa using h3
          subst this; cases hm
        · rw [he] at h3; cases List.append_cancel_left h3; simp at hm
    · obtain ⟨es', h5, h6, -⟩ := sig_other h ⟨fun m e => hem ⟨m, e⟩, ha, hr⟩
      rw [he] at h5; cases List.append_cancel_left h5
      exact (h6 _ hm).2.2 k sl b rfl

theorem CH.sigs {l : List Ev} {es : List (Sig.Ev Msg)} {t g : Nat} (h : Hist CallOk l) (he : ∀ k sl b, Sig.Ev.called k sl b ∉ es) :
    Hist CallOk (l ++ es.map (.sig t g)) := by
  refine h.free ?_
  intro l e hm
  simp at hm; obtain ⟨x, hx, rfl⟩ := hm
  cases x <;> simp [CallOk]
  exact absurd hx (he _ _ _)

theorem CH.sigStep {s s' : State} {t g : Nat} {a : Sig.Act Msg} (hs : sigStep s t g a = some s') (ha : a ≠ .iter) (h : Hist CallOk s.log) :
    Hist CallOk s'.log := by
  obtain ⟨g', es, h1, h2, rfl⟩ := sigStep_spec hs
  exact CH.sigs h (sig_nocall h1 ha h2)

theorem CH.release {s : State} {t g : Nat} (h : Hist CallOk s.log) : Hist CallOk (release s t g).log := by
  rw [release_log_eq]
  refine CH.sigs h ?_
  intro k sl b hm
  obtain ⟨_, _, hx⟩ := relEvs_removed s t g _ hm
  cases hx

theorem CallHist_step {s s' : State} {a : Act} (hb : Base s) (hop : Ops s.stk)
    (hd : DI s.stk s.sigs s.emitter s.log) (h : Hist CallOk s.log) (hs : step s a = some s') : Hist CallOk s'.log := by
  replace hs := (step_body hs).2
  cases a
  case startNotify t =>
    simp only [body] at hs
    split at hs
    · next d m g rest hst =>
      split at hs
      · cases hs
      · split at hs
        · next hnil =>
          cases hs
          simp only [endDispatch, emitLog]
          refine Hist.two (CH.release (h.one trivial)) ?_ trivial
          rw [release_log_eq]
          obtain ⟨l1, x, h1, h2⟩ := hd.will t d m g rest hst
          refine ⟨m, some g, l1, x ++ .skipped t d :: _, by rw [h1]; simp; rfl, Or.inl ⟨x, _, rfl, h2, ?_, ?_⟩⟩
          · intro e he
            simp only [List.mem_map] at he
            obtain ⟨y, hy, rfl⟩ := he
            obtain ⟨k, sl, rfl⟩ := relEvs_removed _ _ _ _ hy
            exact ⟨k, sl, rfl⟩
          · have : sigLog g (l1 ++ x) = sigLog g s.log := by rw [h1]; simp [sigLog]
            rw [this, hb.si.log]; exact slots_nil (hb.si.reach g) hnil
        · exact CH.sigStep hs (by simp) (h.one trivial)
    · cases hs
  case iter t =>
    simp only [body] at hs
    split at hs
    · next d m g rest hst =>
      have hent : Ev.entry m.ty g ∈ s.log := hb.known t _ m g (by rw [hst]; exact List.mem_cons_self) rfl
      obtain ⟨⟨l1, x, y, w, h1, h2, h3, h4, h5⟩, ha, hemi⟩ := hd.noti t d m g (by rw [hst]; simp)
      split at hs
      · cases hs
      · next s1 hs1 =>
        obtain ⟨g', es, e1, e2, rfl⟩ := sigStep_spec hs1
        obtain ⟨m1, hm1, hcase⟩ := sig_iter e1
        rw [ha] at hm1; cases hm1
        split at hs
        · next hnone =>
          simp only [upd_same] at hnone
          have hes : es = [.emissionDone] := by
            rcases hcase with ⟨_, h6⟩ | ⟨h6, _⟩
            · rw [e2] at h6; exact List.append_cancel_left h6
            · simp [emArg, hnone] at h6
          subst hes
          cases hs
          simp only [endDispatch, emitLog]
          refine Hist.two (CH.release (Hist.one (CH.sigs h (by simp)) trivial)) ?_ trivial
          rw [release_log_eq]
          refine ⟨m, some g, l1, x ++ .emitBegin t d :: (y ++ [.sig t g .emissionDone]) ++ .emitEnd t d :: _, by rw [h1]; simp; rfl,
            Or.inr ⟨x, y ++ [.sig t g .emissionDone], _, w, rfl, h2, ?_, ?_, h4, by simp [h5.2]⟩⟩
          · intro e he
            simp only [List.mem_map] at he
            obtain ⟨y, hy, rfl⟩ := he
            obtain ⟨k, sl, rfl⟩ := relEvs_removed _ _ _ _ hy
            exact ⟨k, sl, rfl⟩
          · rw [sigLog_append, h3]; simp [sigLog]
        · next e0 hsome =>
          simp only [upd_same] at hsome
          have key : Hist CallOk (s.log ++ es.map (.sig t g)) := by
            rcases hcase with ⟨h6, _⟩ | ⟨_, es', h6, _, h7⟩
            · rw [hsome] at h6; cases h6
            rw [e2] at h6; cases List.append_cancel_left h6
            suffices ∀ (es pre : List (Sig.Ev Msg)), (∀ k sl b, Sig.Ev.called k sl b ∈ es → b = m) → Hist CallOk (s.log ++ pre.map (.sig t g)) →
                Hist CallOk (s.log ++ pre.map (.sig t g) ++ es.map (.sig t g)) by
              simpa using this es [] h7 (by simpa using h)
            intro es
            induction es with
            | nil => intro pre _ h; simpa using h
            | cons e es ih =>
              intro pre hall h
              have := ih (pre ++ [e]) (fun k sl b hm => hall k sl b (by simp [hm])) (by
                rw [List.map_append, ← List.append_assoc]
                refine h.one ?_
                cases e
                case called k sl b =>
                  have := hall k sl b (by simp)
                  subst this
                  refine ⟨List.mem_append_left _ hent, d, l1, x ++ .emitBegin t d :: (y ++ pre.map (.sig t g)), by rw [h1]; simp, ?_⟩
                  simp [h5.1]
                  intro hm; exact h2 _ hm rfl
                all_goals trivial)
              simpa using this
          split at hs <;> cases hs <;> exact key
    · cases hs
  all_goals simp only [body, setStk, emitLog, endDispatch, endLoop] at hs
  all_goals (repeat' split at hs)
  all_goals (first | (cases hs; done) | cases hs | skip)
  all_goals (try exact h)
  all_goals
    repeat first
    | exact h
    | apply CH.release
    | apply Hist.one
    | apply Hist.two
    | apply Hist.three
    | refine CH.sigStep hs ?_ ?_
  all_goals (try trivial)
  all_goals first
    | (intro e; cases e; done)
    | (refine h.free ?_; intro l e he; rcases mem_cleared he with ⟨w, rfl⟩ | rfl <;> trivial)
    | (rintro rfl; have := hop _ _ _ _ ‹s.stk _ = _›; cases this; done)
    | (refine h.free ?_; intro l e he; simp at he; done)
    | exact ⟨_, none, s.log, [], rfl, rfl⟩
    | exact Hist.one h trivial
    | exact Hist.two h trivial trivial

/-- Everything that holds in reachable states. -/
structure Full (s : State) : Prop where
  base : Base s
  dn : DN s.stk s.nextD
  ops : Ops s.stk
  di : s.ub = false → DI s.stk s.sigs s.emitter s.log
  calls : Hist CallOk s.log

theorem full_init : Full init :=
  ⟨base_init, ⟨fun _ => by simp [init, dids], fun _ => by simp [init, dids]⟩, fun _ => by simp [init],
    fun _ => ⟨fun _ => by simp [init], fun _ => by simp [init], fun _ => by simp [init, notifs]⟩, Hist.nil⟩

theorem full_step {s s' : State} {a : Act} (h : Full s) (hs : step s a = some s') : Full s' :=
  have hu := (step_body hs).1
  ⟨base_step h.base hs, DN_step h.dn hs, Ops_step h.base.wf h.ops hs,
    fun hu' => DI_step h.base h.dn h.ops (h.di hu) hs hu', CallHist_step h.base h.ops (h.di hu) h.calls hs⟩

theorem full (acts : List Act) (s : State) (h : run init acts = some s) : Full s :=
  run_inv Full full_init (fun _ _ _ hb hs => full_step hb hs) acts s h

end Maf.Proc
