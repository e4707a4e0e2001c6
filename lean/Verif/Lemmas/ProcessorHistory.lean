import Verif.Lemmas.ProcessorEmission
namespace Maf.Proc

/-! ### Rules over histories -/

/-- Every event of `log` obeys rule `P`. -/
structure Hist (P : List Ev → Ev → Prop) (log : List Ev) : Prop where
  all : ∀ l e m, log = l ++ e :: m → P l e

theorem Hist.nil {P : List Ev → Ev → Prop} : Hist P [] := by
  constructor; intro l e m h; simp at h

theorem Hist.one {P : List Ev → Ev → Prop} {log : List Ev} {e : Ev} (h : Hist P log) (he : P log e) : Hist P (log ++ [e]) := by
  constructor; intro l e' m hl
  rcases List.append_eq_append_iff.1 hl with ⟨a, ha, hb⟩ | ⟨a, ha, hb⟩
  · cases a with
    | nil => simp at ha hb; obtain ⟨rfl, -⟩ := hb; subst ha; exact he
    | cons x a => simp at hb
  · cases a with
    | nil => simp at ha hb; obtain ⟨rfl, -⟩ := hb; subst ha; exact he
    | cons x a => simp at hb; obtain ⟨rfl, rfl⟩ := hb; exact h.all _ _ _ ha

theorem Hist.two {P : List Ev → Ev → Prop} {log : List Ev} {e f : Ev} (h : Hist P log) (he : P log e)
    (hf : P (log ++ [e]) f) : Hist P (log ++ [e, f]) := by
  have := (h.one he).one hf; rwa [List.append_assoc] at this

theorem Hist.three {P : List Ev → Ev → Prop} {log : List Ev} {e f g : Ev} (h : Hist P log) (he : P log e)
    (hf : P (log ++ [e]) f) (hg : P (log ++ [e, f]) g) : Hist P (log ++ [e, f, g]) := by
  have := (h.two he hf).one hg; rwa [List.append_assoc] at this

/-- Events without a rule. -/
theorem Hist.free {P : List Ev → Ev → Prop} {log es : List Ev} (h : Hist P log) (he : ∀ l, ∀ e ∈ es, P l e) : Hist P (log ++ es) := by
  induction es generalizing log with
  | nil => simpa using h
  | cons e es ih =>
    have := ih (log := log ++ [e]) (h.one (he _ _ (by simp))) (fun l e' h' => he l e' (by simp [h']))
    simpa using this

theorem Hist.rel {P : List Ev → Ev → Prop} {s : State} {t g : Nat} (h : Hist P s.log)
    (hp : ∀ l t g e, P l (.sig t g e)) : Hist P (release s t g).log := by
  obtain ⟨f, u, es, he⟩ := release_eq s t g
  rw [he]; refine h.free ?_
  intro l e hm; simp at hm; obtain ⟨x, -, rfl⟩ := hm; exact hp _ _ _ _

/-! ### Calls -/

/-- The call a thread is in: the work, has a handler been seen, has the queue been found open. -/
def topCall : List Frame → Option (Work × Bool × Bool)
  | .post1 m :: _ => some (.msg m, false, false)
  | .post2 m _ :: _ => some (.msg m, false, false)
  | .async w :: _ => some (w, true, false)
  | .push1 w :: _ => some (w, true, false)
  | .push2 w :: _ => some (w, true, true)
  | _ => none

theorem topCall_user {l : List Frame} (h : atUser l = true) : topCall l = none := by
  cases l with
  | nil => rfl
  | cons f l => cases f <;> simp [atUser, Frame.isUser, topCall] at h ⊢
theorem topCall_loop {l : List Frame} (h : atLoop l = true) : topCall l = none := by
  cases l with
  | nil => rfl
  | cons f l => cases f <;> simp [atLoop, topCall] at h ⊢
theorem topCall_notif {l : List Frame} {d : Nat} {m : Msg} {g : SigId} (h : (l.head? == some (Frame.notifying d m g)) = true) :
    topCall l = none := by
  cases l with
  | nil => rfl
  | cons f l => simp at h; subst h; rfl

def Called (t : Tid) (w : Work) (seen acc : Bool) (l : List Ev) : Prop :=
  ∃ x y, l = x ++ .asked t w :: y ∧ closedOf x = false ∧
    callEvs t y = (if acc then [.accepted t w] else []) ∧
    (seen = true → ∀ m, w = .msg m → ∃ y1 y2, y = y1 ++ y2 ∧ HandlerSeen m.ty (x ++ .asked t w :: y1))

def Calls (stk : Tid → List Frame) (l : List Ev) : Prop :=
  ∀ t w sn ac, topCall (stk t) = some (w, sn, ac) → Called t w sn ac l

@[simp] theorem callEvs_append (t : Tid) (a b : List Ev) : callEvs t (a ++ b) = callEvs t a ++ callEvs t b := by simp [callEvs]

theorem Called.grow {t : Tid} {w : Work} {sn ac : Bool} {l es : List Ev} (h : Called t w sn ac l)
    (he : callEvs t es = []) : Called t w sn ac (l ++ es) := by
  obtain ⟨x, y, h1, h2, h3, h4⟩ := h
  refine ⟨x, y ++ es, by simp [h1], h2, by simp [h3, he], fun hs m hm => ?_⟩
  obtain ⟨y1, y2, h5, h6⟩ := h4 hs m hm
  exact ⟨y1, y2 ++ es, by simp [h5], h6⟩

theorem LogBy.calls {t u : Tid} {l l' : List Ev} (h : LogBy t l l') (hu : u ≠ t) : ∃ es, l' = l ++ es ∧ callEvs u es = [] := by
  obtain ⟨es, rfl, he⟩ := h
  refine ⟨es, rfl, ?_⟩
  simp only [callEvs, List.filter_eq_nil_iff]
  intro e hm
  rcases he e hm with h | h <;> cases e <;> simp [Ev.tid, callEv] at h ⊢
  all_goals (rintro rfl; exact hu h)

/-- `post` on the way: the map still has what was found. -/
def Found (stk : Tid → List Frame) (map : List (Ty × SigId)) : Prop :=
  ∀ t m g rest, stk t = .post2 m g :: rest → map.lookup m.ty = some g

theorem Found_step {s s' : State} {a : Act} (ho : ∀ t, holdsM (s.stk t) = true ↔ s.mOwner = some t)
    (h : Found s.stk s.map) (hw : ∀ t, wf (s.stk t) = true) (hs : step s a = some s') : Found s'.stk s'.map := by
  obtain ⟨hoth, -⟩ := step_other hs
  intro t m g rest hst'
  by_cases ht : t = a.tid
  · subst ht
    clear hoth
    have top : ∀ {t f rest}, s.stk t = f :: rest → fits f rest = true := wf_top hw
    replace h := h a.tid
    replace hs := (step_body hs).2
    peel
    all_goals simp only [Act.tid] at h hst'
    all_goals try exact h _ _ _ hst'
    all_goals simp only [release_stk, upd_same] at hst'
    all_goals (try have hcc := ‹¬ canCall s _ = false›)
    all_goals (try rw [canCall_iff, Bool.not_eq_false, hst'] at hcc)
    all_goals (try (simp [atUser, Frame.isUser] at hcc; done))
    all_goals (try have hf := top ‹s.stk _ = _›)
    all_goals (try simp only [fits] at hf)
    all_goals first
      | (cases hst'; done)
      | (cases hst'; assumption)
      | (rw [hst'] at hf; simp [atUser, atLoop, Frame.isUser] at hf; done)
      | skip
  · rw [(hoth t ht).1] at hst'
    have hown : s.mOwner = some t := (ho t).1 (by rw [hst']; rfl)
    have hsame : s'.map = s.map := by
      have hno : ∀ u, u ≠ t → holdsM (s.stk u) = false := by
        intro u hu
        cases hh : holdsM (s.stk u) with
        | false => rfl
        | true => rw [(ho u).1 hh] at hown; cases hown; exact absurd rfl hu
      have hno' := hno a.tid (fun e => ht e.symm)
      clear hno
      replace hs := (step_body hs).2
      peel
      all_goals first
        | rfl
        | (simp only [release_map]; done)
        | (rw [hown] at *; simp at *; done)
        | (simp only [Act.tid] at hno'; rw [‹s.stk _ = _›] at hno'; cases hno')
    rw [hsame]; exact h t m g rest hst'

theorem mem_cleared {e : Ev} {l : List Work} {t : Nat} (h : e ∈ l.map Ev.cleared ++ [.stopped t]) :
    (∃ w, e = .cleared w) ∨ e = .stopped t := by
  simp at h; rcases h with ⟨w, -, rfl⟩ | rfl
  · exact Or.inl ⟨w, rfl⟩
  · exact Or.inr rfl

theorem seen_of {s : State} (hsi : SI s.sigs s.log) (hmi : MapI s.map s.nextSig s.log) {m : Msg} {g : SigId}
    (hl : s.map.lookup m.ty = some g) (hne : (s.sigs g).slots ≠ []) : HandlerSeen m.ty s.log := by
  refine ⟨g, by rw [hmi.ent, hl], ?_⟩
  rw [hsi.log g]
  exact slots_ne (hsi.reach g) hne

theorem Calls_step {s s' : State} {a : Act} (hw : ∀ t, wf (s.stk t) = true) (hc : closedOf s.log = s.closed)
    (hsi : SI s.sigs s.log) (hmi : MapI s.map s.nextSig s.log) (hfd : Found s.stk s.map)
    (h : Calls s.stk s.log) (hs : step s a = some s') : Calls s'.stk s'.log := by
  obtain ⟨hoth, hlog⟩ := step_other hs
  intro t w sn ac htc
  by_cases ht : t = a.tid
  · subst ht
    clear hoth hlog
    have top : ∀ {t f rest}, s.stk t = f :: rest → fits f rest = true := wf_top hw
    replace h := h a.tid
    replace hs := (step_body hs).2
    peel
    all_goals simp only [Act.tid] at h htc ⊢
    all_goals try exact h _ _ _ htc
    all_goals (try simp only [release_stk, upd_same] at htc)
    all_goals (try have hst := ‹s.stk _ = _›)
    all_goals (try have hf := top hst)
    all_goals (try simp only [fits] at hf)
    all_goals (try have hcc := ‹¬ canCall s _ = false›)
    all_goals (try rw [canCall_iff, Bool.not_eq_false] at hcc)
    all_goals (try rw [topCall_user hcc] at htc)
    all_goals (try rw [topCall_notif hf] at htc)
    all_goals (try rw [topCall_user hf] at htc)
    all_goals (try rw [topCall_loop hf] at htc)
    all_goals first
      | (cases htc; done)
      | (cases htc; exact ⟨_, [], rfl, by rw [hc]; simpa using ‹¬ s.closed = true›, rfl, by simp⟩)
      | skip
    all_goals (try rw [hst] at h)
    · simp only [topCall] at h htc; cases htc; exact h _ _ _ rfl
    · next hne =>
      simp only [topCall] at h htc; cases htc
      obtain ⟨x, y, h1, h2, h3, h4⟩ := h _ _ _ rfl
      refine ⟨x, y, h1, h2, h3, fun _ m hm => ?_⟩
      cases hm
      exact ⟨y, [], by simp, by rw [← h1]; exact seen_of hsi hmi (hfd _ _ _ _ hst) hne⟩
    · simp only [topCall] at h htc; cases htc; exact h _ _ _ rfl
    · simp only [topCall] at h htc; cases htc
      obtain ⟨x, y, h1, h2, h3, h4⟩ := h _ _ _ rfl
      refine ⟨x, y ++ [.accepted _ w], by rw [h1, List.append_assoc]; rfl, h2, by simp [h3]; simp [callEvs, callEv], fun hs m hm => ?_⟩
      obtain ⟨y1, y2, h5, h6⟩ := h4 hs m hm
      exact ⟨y1, y2 ++ [.accepted _ w], by rw [h5, List.append_assoc], h6⟩
    · rw [hst] at htc; cases htc
  · rw [(hoth t ht).1] at htc
    obtain ⟨es, he, hn⟩ := hlog.calls ht
    rw [he]; exact (h t w sn ac htc).grow hn

/-- Dispatch numbers are new. -/
def DFresh (n : Nat) (l : List Ev) : Prop := ∀ t d m o, Ev.processing t d m o ∈ l → d < n

theorem DFresh.app {n : Nat} {l es : List Ev} (h : DFresh n l) (he : ∀ t d m o, Ev.processing t d m o ∉ es) : DFresh n (l ++ es) := by
  intro t d m o hm
  rcases List.mem_append.1 hm with hm | hm
  · exact h _ _ _ _ hm
  · exact absurd hm (he _ _ _ _)
theorem DFresh.rel {n : Nat} {s : State} {t g : Nat} (h : DFresh n s.log) : DFresh n (release s t g).log := by
  obtain ⟨f, u, es, he⟩ := release_eq s t g
  rw [he]; exact h.app (by simp)

theorem DFresh.new {n : Nat} {l es : List Ev} {t : Nat} {m : Msg} {o : Option SigId} (h : DFresh n l)
    (he : ∀ t d m o, Ev.processing t d m o ∉ es) : DFresh (n + 1) (l ++ .processing t n m o :: es) := by
  intro t d m o hm
  rcases List.mem_append.1 hm with hm | hm
  · exact Nat.lt_succ_of_lt (h _ _ _ _ hm)
  · rcases List.mem_cons.1 hm with hm | hm
    · cases hm; exact Nat.lt_succ_self _
    · exact absurd hm (he _ _ _ _)

theorem DFresh_step {s s' : State} {a : Act} (h : DFresh s.nextD s.log) (hs : step s a = some s') : DFresh s'.nextD s'.log := by
  replace hs := (step_body hs).2
  peel
  all_goals simp only [release_nextD]
  all_goals
    repeat first
    | exact h
    | apply DFresh.new h
    | apply DFresh.rel
    | apply DFresh.app
  all_goals (try (simp; done))
  all_goals (split <;> simp)

/-- In a well-formed stack every work in execution has its run loop. -/
theorem works_le : ∀ (l : List Frame), wf l = true →
    (works l).length + (takenOf l).length + (if atLoop l then 1 else 0) ≤ loops l
  | [], _ => by simp [works, takenOf, loops, atLoop]
  | f :: l, h => by
    simp only [wf, Bool.and_eq_true] at h
    have ih := works_le l h.2
    have hfit := h.1
    cases f <;> simp only [fits] at hfit <;>
      simp [works, takenOf, loops, atLoop] <;> first | omega | (simp [hfit, takenOf_loop hfit] at ih; omega)

theorem depth_pos {s : State} {t : Nat} (hw : ∀ t, wf (s.stk t) = true) (hd : ∀ t, depthOf t s.log = loops (s.stk t)) :
    (works (s.stk t)).length + (takenOf (s.stk t)).length + (if atLoop (s.stk t) then 1 else 0) ≤ depthOf t s.log := by
  rw [hd]; exact works_le _ (hw t)

theorem setLoops_le : ∀ l, setLoops l ≤ loops l
  | [] => Nat.le_refl _
  | f :: l => by
    have ih := setLoops_le l
    cases f
    case loop k b => cases b <;> simp only [setLoops, loops] <;> omega
    case leaving b => cases b <;> simp only [setLoops, loops] <;> omega
    all_goals exact ih

theorem result_true {t : Tid} {w : Work} {ac : Bool} {l es : List Ev} (h : Called t w true ac l)
    (he : (if ac then [Ev.accepted t w] else []) ++ callEvs t es = [.accepted t w, .entered t w] ∨
      (if ac then [Ev.accepted t w] else []) ++ callEvs t es = [.dropped t w]) : ResultOk (l ++ es) t w true := by
  obtain ⟨x, y, h1, h2, h3, h4⟩ := h
  refine ⟨x, y ++ es, by simp [h1], ?_⟩
  rw [if_pos rfl, callEvs_append, h3]
  refine ⟨h2, he, fun m hm => ?_⟩
  obtain ⟨y1, y2, h5, h6⟩ := h4 rfl m hm
  exact ⟨y1, y2 ++ es, by simp [h5], h6⟩

theorem result_false {t : Tid} {w : Work} {sn : Bool} {l : List Ev} (h : Called t w sn false l)
    (hr : closedOf l = true ∨ ∃ m, w = .msg m ∧ handlersOf m.ty l = []) : ResultOk l t w false := by
  obtain ⟨x, y, h1, -, h3, -⟩ := h
  exact ⟨x, y, h1, by rw [if_neg (by simp)]; exact ⟨by simpa using h3, hr⟩⟩

theorem result_closed {t : Tid} {w : Work} {l : List Ev} (hr : closedOf l = true) : ResultOk (l ++ [.asked t w]) t w false :=
  ⟨l, [], by simp, by rw [if_neg (by simp)]; exact ⟨rfl, Or.inl (by simpa [closedStep] using hr)⟩⟩

theorem none_of {s : State} (hsi : SI s.sigs s.log) (hmi : MapI s.map s.nextSig s.log) {m : Msg}
    (h : s.map.lookup m.ty = none ∨ ∃ g, s.map.lookup m.ty = some g ∧ (s.sigs g).slots = []) : handlersOf m.ty s.log = [] := by
  simp only [handlersOf, hmi.ent]
  rcases h with h | ⟨g, h, hn⟩
  · rw [h]
  · rw [h]; simp only [hsi.log]; exact slots_nil (hsi.reach g) hn

set_option maxHeartbeats 1000000 in
theorem Hist_step {s s' : State} {a : Act} (hw : ∀ t, wf (s.stk t) = true) (hc : closedOf s.log = s.closed)
    (hd : ∀ t, depthOf t s.log = loops (s.stk t)) (ho : ∀ t, openWork t s.log = works (s.stk t))
    (ht : ∀ t, setLoops (s.stk t) = (s.tl t == some true).toNat)
    (hsi : SI s.sigs s.log) (hmi : MapI s.map s.nextSig s.log) (hfd : Found s.stk s.map) (hfr : DFresh s.nextD s.log)
    (hca : Calls s.stk s.log) (h : Hist EvOk s.log) (hs : step s a = some s') : Hist EvOk s'.log := by
  have hsig : ∀ l t g e, EvOk l (.sig t g e) := fun _ _ _ _ => trivial
  have hsig' : ∀ l, ∀ t g (es : List (Sig.Ev Msg)), ∀ e ∈ es.map (Ev.sig t g), EvOk l e := by
    intro l t g es e he; simp at he; obtain ⟨x, -, rfl⟩ := he; trivial
  have hpos : ∀ {t}, _ := fun {t} => depth_pos (t := t) hw hd
  replace hs := (step_body hs).2
  peel
  all_goals try exact h
  all_goals (try have hst := ‹s.stk _ = _›)
  all_goals (try have hcl := ‹s.closed = true›)
  all_goals (try have hcl := ‹¬ s.closed = true›)
  all_goals (try have hca' := hca _ _ _ _ (by rw [hst]; rfl))
  all_goals
    repeat first
    | exact h
    | exact hsig
    | (refine Hist.rel ?_ hsig)
    | (refine Hist.free ?_ (fun l => hsig' l _ _ _))
    | apply Hist.one
    | apply Hist.two
    | apply Hist.three
  all_goals (try (simp only [EvOk]; done))
  all_goals first
    | exact result_closed (by rw [hc]; exact hcl)
    | exact result_false hca' (Or.inl (by rw [hc]; exact hcl))
    | exact result_false hca' (Or.inr ⟨_, rfl, none_of hsi hmi (Or.inl ‹_›)⟩)
    | exact result_false hca' (Or.inr ⟨_, rfl, none_of hsi hmi (Or.inr ⟨_, hfd _ _ _ _ hst, ‹_›⟩)⟩)
    | (refine result_true hca' (Or.inr ?_); simp [callEvs, callEv]; done)
    | (refine result_true hca' (Or.inl ?_); simp [callEvs, callEv]; done)
    | (simp only [EvOk, hc]; simpa using hcl; done)
    | (simp only [EvOk]; refine ⟨by rw [hc]; simpa using hcl, ?_⟩; have hx := hpos (t := _); rw [hst] at hx; simp [atLoop] at hx; omega)
    | skip
  · refine ⟨by rw [hc]; simpa using hcl, ?_⟩
    rename_i t _ _ _ htl
    rw [hd]; refine Nat.lt_of_lt_of_le ?_ (setLoops_le _)
    rw [ht, htl]; decide
  · rename_i t _ _ _ _ _ _ _ _ _ _ _
    refine ⟨by rw [hc]; simpa using hcl, ?_⟩
    have hx := hpos (t := t); rw [hst] at hx; simp [atLoop] at hx; omega
  · rename_i t _ _ _ _ _ _ _ _ _ _ _
    refine ⟨by rw [hc]; simpa using hcl, ?_⟩
    have hx := hpos (t := t); rw [hst] at hx; simp [atLoop] at hx; omega
  · rename_i t _ _ _ _ _
    have hx := hpos (t := t)
    simp only [EvOk]; rw [ho]; rw [hst] at hx ⊢; simp [takenOf] at hx; omega
  · rename_i t _ _ _ _ _
    have hx := hpos (t := t)
    simp only [EvOk]; rw [ho]; rw [hst] at hx ⊢; simp [takenOf] at hx; omega
  · exact ⟨by rw [hmi.ent]; exact Eq.symm ‹_›, fun _ _ _ hm => Nat.lt_irrefl _ (hfr _ _ _ _ hm)⟩
  · exact ⟨by rw [hmi.ent]; exact Eq.symm ‹_›, fun _ _ _ hm => Nat.lt_irrefl _ (hfr _ _ _ _ hm)⟩
  · simp only [EvOk]; rw [hmi.ent]; assumption
  · simp only [EvOk]; rw [hmi.ent]; assumption
  · simp [EvOk, entryStep]
  · exact none_of hsi hmi (m := ⟨_, 0⟩) (Or.inr ⟨_, ‹_›, ‹_›⟩)
  · refine h.free ?_
    intro l e he; simp at he
  · refine h.free ?_
    intro l e he; rcases mem_cleared he with ⟨w, rfl⟩ | rfl <;> trivial

/-! ### All of it -/

/-- What holds in every reachable state. -/
structure Base (s : State) : Prop where
  wf : ∀ t, wf (s.stk t) = true
  fifo : entries s.log = exits s.log ++ s.q
  closed : closedOf s.log = s.closed
  acc : ∀ t, acceptedBy t s.log = enteredBy t s.log ++ pushOf (s.stk t)
  beg : ∀ t, beganBy t s.log = ranBy t s.log ++ takenOf (s.stk t)
  depth : ∀ t, depthOf t s.log = loops (s.stk t)
  opened : ∀ t, openWork t s.log = works (s.stk t)
  tl : ∀ t, setLoops (s.stk t) = (s.tl t == some true).toNat
  si : SI s.sigs s.log
  own : ∀ t, holdsM (s.stk t) = true ↔ s.mOwner = some t
  mapi : MapI s.map s.nextSig s.log
  known : Known s.stk s.log
  found : Found s.stk s.map
  calls : Calls s.stk s.log
  fresh : DFresh s.nextD s.log
  hist : Hist EvOk s.log

theorem base_init : Base init := by
  refine ⟨fun _ => rfl, rfl, rfl, fun _ => rfl, fun _ => rfl, fun _ => rfl, fun _ => rfl, fun _ => rfl,
    ⟨fun _ => ⟨[], rfl⟩, fun _ => rfl⟩, fun t => by simp [init, holdsM], ⟨fun _ => rfl, ?_, ?_, ?_⟩, ?_, ?_, ?_, ?_, ?_⟩
  all_goals simp [init, Known, Found, Calls, topCall, DFresh]
  exact Hist.nil

theorem base_step {s s' : State} {a : Act} (h : Base s) (hs : step s a = some s') : Base s' where
  wf := wf_step h.wf hs
  fifo := fifo_step h.fifo hs
  closed := closed_step h.closed hs
  acc := fun t => acc_step h.wf t (h.acc t) hs
  beg := fun t => beg_step h.wf t (h.beg t) hs
  depth := fun t => depth_step h.wf t (h.depth t) hs
  opened := fun t => open_step h.wf t (h.opened t) hs
  tl := fun t => tl_step h.wf t (h.tl t) hs
  si := SI_step h.si hs
  own := mOwner_step h.wf h.own hs
  mapi := MapI_step h.mapi hs
  known := Known_step h.mapi h.known hs
  found := Found_step h.own h.found h.wf hs
  calls := Calls_step h.wf h.closed h.si h.mapi h.found h.calls hs
  fresh := DFresh_step h.fresh hs
  hist := Hist_step h.wf h.closed h.depth h.opened h.tl h.si h.mapi h.found h.fresh h.calls h.hist hs

theorem base (acts : List Act) (s : State) (h : run init acts = some s) : Base s :=
  run_inv Base base_init (fun _ _ _ hb hs => base_step hb hs) acts s h

end Maf.Proc
