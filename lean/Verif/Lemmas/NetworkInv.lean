import Verif.Lemmas.Network
import Verif.Spec.Network
/-
The invariant of networks of signals.
-/
namespace Maf.Net

@[simp] theorem upd_same {β : Type} (f : Nat → β) (i : Nat) (v : β) : upd f i v i = v := by simp [upd]
theorem upd_other {β : Type} (f : Nat → β) {i j : Nat} (v : β) (h : j ≠ i) : upd f i v j = f j := by simp [upd, h]

theorem sigLog_append (g : SigId) (l m : List Ev) : sigLog g (l ++ m) = sigLog g l ++ sigLog g m := by simp [sigLog]

theorem sigLog_same (t : Tid) (g : SigId) (es : List (Sig.Ev Nat)) : sigLog g (es.map (.sig t g)) = es := by
  induction es with
  | nil => rfl
  | cons e es ih => simp only [sigLog, List.map_cons, List.filterMap_cons, if_true] at ih ⊢; rw [ih]

theorem sigLog_other (t : Tid) {g g' : SigId} (h : g ≠ g') (es : List (Sig.Ev Nat)) : sigLog g' (es.map (.sig t g)) = [] := by
  induction es with
  | nil => rfl
  | cons e es ih => simp only [sigLog, List.map_cons, List.filterMap_cons, h, if_false] at ih ⊢; rw [ih]

/-- Events that are not about which slots there are. -/
def still : Ev → Bool
  | .sig .. | .connected .. | .destroyed .. => false
  | _ => true

theorem sigLog_still (g : SigId) (es : List Ev) (h : ∀ e ∈ es, still e = true) : sigLog g es = [] := by
  induction es with
  | nil => rfl
  | cons e es ih =>
    have he := h e (by simp)
    have := ih (fun x hx => h x (by simp [hx]))
    cases e <;> simp_all [sigLog, still]

theorem Is.more {l : List Ev} {g sl k} (h : Is l g sl k) (m : List Ev) : Is (l ++ m) g sl k := by
  obtain ⟨t, h⟩ := h; exact ⟨t, List.mem_append_left _ h⟩

/-! ### The signals -/

structure Sound (sigs : SigId → Sig.State Nat) (kinds : SigId → SlotId → Kind) (log : List Ev) : Prop where
  reach : ∀ g, ∃ as, Sig.run (Sig.init Nat) as = some (sigs g)
  proj : ∀ g, (sigs g).log = sigLog g log
  conn : ∀ g sl k, Is log g sl k → kinds g sl = k ∧ sl < (sigs g).nextSlot
  made : ∀ g sl, sl < (sigs g).nextSlot → Is log g sl (kinds g sl)
  dead : ∀ g, (sigs g).alive = false ↔ ∃ t, Ev.destroyed t g ∈ log
  shut : ∀ g, Sig.Shut (sigs g)

theorem Sound.inv {sigs kinds log} (h : Sound sigs kinds log) (g : SigId) : Sig.Inv (sigs g) := by
  obtain ⟨as, h⟩ := h.reach g; exact Sig.inv_run as _ h

theorem Sound.unique {sigs kinds log} (h : Sound sigs kinds log) {g sl k k'} (h1 : Is log g sl k) (h2 : Is log g sl k') : k = k' :=
  (h.conn _ _ _ h1).1.symm.trans (h.conn _ _ _ h2).1

theorem Is.still {l es : List Ev} {g sl k} (hs : ∀ e ∈ es, still e = true) (h : Is (l ++ es) g sl k) : Is l g sl k := by
  obtain ⟨t, h⟩ := h
  rcases List.mem_append.1 h with h | h
  · exact ⟨t, h⟩
  · have := hs _ h; simp [Net.still] at this

theorem Sound.still {sigs kinds log} (h : Sound sigs kinds log) (es : List Ev) (hs : ∀ e ∈ es, still e = true) : Sound sigs kinds (log ++ es) := by
  refine ⟨h.reach, ?_, ?_, ?_, ?_, h.shut⟩
  · intro g; rw [sigLog_append, sigLog_still g es hs, List.append_nil]; exact h.proj g
  · intro g sl k hk; exact h.conn g sl k (Is.still hs hk)
  · intro g sl hl; exact (h.made g sl hl).more es
  · intro g; rw [h.dead g]
    constructor
    · rintro ⟨t, ht⟩; exact ⟨t, List.mem_append_left _ ht⟩
    · rintro ⟨t, ht⟩
      rcases List.mem_append.1 ht with ht | ht
      · exact ⟨t, ht⟩
      · have := hs _ ht; simp [Net.still] at this

theorem sig_reach {x x' : Sig.State Nat} {a : Sig.Act Nat} (h : ∃ as, Sig.run (Sig.init Nat) as = some x) (hs : Sig.step x a = some x') :
    ∃ as, Sig.run (Sig.init Nat) as = some x' := by
  obtain ⟨as, h⟩ := h
  refine ⟨as ++ [a], ?_⟩
  have : ∀ (y : Sig.State Nat) (as : List (Sig.Act Nat)) (b : List (Sig.Act Nat)), Sig.run y (as ++ b) = (Sig.run y as).bind fun z => Sig.run z b := by
    intro y as b
    induction as generalizing y with
    | nil => rfl
    | cons c as ih =>
      simp only [List.cons_append, Sig.run]
      cases Sig.step y c with
      | none => rfl
      | some y' => exact ih y'
  rw [this, h]; simp [Sig.run, hs]

/-- What a step of a signal changes. -/
theorem sigStep_spec {s s' : State} {t : Tid} {g : SigId} {a : Sig.Act Nat} (h : sigStep s t g a = some s') :
    ∃ x es, Sig.step (s.sigs g) a = some x ∧ x.log = (s.sigs g).log ++ es ∧ (a ≠ .iter → ∀ tk sl b, Sig.Ev.called tk sl b ∉ es) ∧
      s' = { s with sigs := upd s.sigs g x, ub := s.ub || x.ub, log := s.log ++ es.map (.sig t g) } := by
  unfold sigStep at h
  split at h
  · cases h
  · next x hx =>
    obtain ⟨es, h1, h2, _⟩ := Sig.step_adds hx
    refine ⟨x, es, hx, h1, h2, ?_⟩
    cases h
    simp [h1]

/-- The signal's mutex is taken by the thread's emission. -/
def useful (x : Sig.State Nat) : Sig.Act Nat → Prop
  | .disconnect n | .reconnect n | .drop n | .scopeEnd n => ∀ p ∈ x.aware, p.2 ≠ n
  | .clear | .emit _ | .iter | .ret => True
  | _ => False

/-- Not a step that makes slots, destroys the signal or keeps connections. -/
def mild : Sig.Act Nat → Bool
  | .connect | .connectAware | .destroy | .keep => false
  | _ => true

theorem mild_of_useful {x : Sig.State Nat} {a : Sig.Act Nat} (h : useful x a) : mild a = true := by cases a <;> simp_all [useful, mild]

/-- The connections that slots own. -/
def Aware (sigs : SigId → Sig.State Nat) : Prop := ∀ g, Sig.AwareOk (sigs g)

theorem Aware.moved {sigs} (h : Aware sigs) {g : SigId} {a : Sig.Act Nat} {x : Sig.State Nat} (hs : Sig.step (sigs g) a = some x)
    (ha : useful (sigs g) a ∨ a = .connect ∨ a = .connectAware ∨ a = .destroy) : Aware (upd sigs g x) := by
  intro g'
  by_cases e : g' = g
  · subst e; rw [upd_same]
    refine Sig.awareOk_step (h g') hs ?_
    rcases ha with ha | ha | ha | ha
    · rintro n (rfl | rfl | rfl | rfl) <;> exact ha
    all_goals (subst ha; intro n hc; simp at hc)
  · rw [upd_other _ _ e]; exact h g'

theorem useful_of_opOk {x : Sig.State Nat} {a : Sig.Act Nat} (h : opOk x a = true) (ha : a ≠ .destroy) : useful x a := by
  cases a <;> simp_all [opOk, useful]
  all_goals (intro a b hab; exact h a b hab)

theorem Sound.moved {sigs kinds log} (h : Sound sigs kinds log) {t : Tid} {g : SigId} {a : Sig.Act Nat} {x : Sig.State Nat} {es : List (Sig.Ev Nat)}
    (hs : Sig.step (sigs g) a = some x) (he : x.log = (sigs g).log ++ es) (ha : mild a = true) :
    Sound (upd sigs g x) kinds (log ++ es.map (.sig t g)) := by
  obtain ⟨es', h1, _, h3, h4, _⟩ := Sig.step_adds hs
  have h3 := h3 (by rintro rfl; cases ha) (by rintro rfl; cases ha)
  have h4 := h4 (by rintro rfl; cases ha)
  have hx : ∀ g', (upd sigs g x g').nextSlot = (sigs g').nextSlot ∧ (upd sigs g x g').alive = (sigs g').alive := by
    intro g'
    by_cases e : g' = g
    · subst e; simp only [upd_same]; exact ⟨h3.1, h4⟩
    · rw [upd_other _ _ e]; exact ⟨rfl, rfl⟩
  have hns : ∀ g' sl k, Is (log ++ es.map (.sig t g)) g' sl k ↔ Is log g' sl k := by
    intro g' sl k
    refine ⟨?_, fun h => h.more _⟩
    rintro ⟨t', ht⟩
    rcases List.mem_append.1 ht with ht | ht
    · exact ⟨t', ht⟩
    · simp at ht
  refine ⟨?_, ?_, ?_, ?_, ?_, ?_⟩
  · intro g'
    by_cases e : g' = g
    · subst e; rw [upd_same]; exact sig_reach (h.reach g') hs
    · rw [upd_other _ _ e]; exact h.reach g'
  · intro g'
    rw [sigLog_append]
    by_cases e : g' = g
    · subst e; rw [upd_same, sigLog_same, he, h.proj]
    · rw [upd_other _ _ e, sigLog_other t (Ne.symm e), List.append_nil]; exact h.proj g'
  · intro g' sl k hk; rw [(hx g').1]; exact h.conn g' sl k ((hns _ _ _).1 hk)
  · intro g' sl hl; rw [(hx g').1] at hl; exact (hns _ _ _).2 (h.made g' sl hl)
  · intro g'
    rw [(hx g').2, h.dead g']
    constructor
    · rintro ⟨t', ht⟩; exact ⟨t', List.mem_append_left _ ht⟩
    · rintro ⟨t', ht⟩
      rcases List.mem_append.1 ht with ht | ht
      · exact ⟨t', ht⟩
      · simp at ht
  · intro g'
    by_cases e : g' = g
    · subst e; rw [upd_same]; exact Sig.shut_step (h.shut g') hs (by rintro rfl; cases ha)
    · rw [upd_other _ _ e]; exact h.shut g'

theorem Sound.connects {sigs kinds log} (h : Sound sigs kinds log) {t : Tid} {g : SigId} {k : Kind} {x : Sig.State Nat} {es : List (Sig.Ev Nat)}
    (hs : Sig.step (sigs g) (if k.aware then .connectAware else .connect) = some x) (he : x.log = (sigs g).log ++ es) :
    Sound (upd sigs g x) (upd kinds g (upd (kinds g) (sigs g).nextSlot k)) (log ++ [.connected t g (sigs g).nextSlot k] ++ es.map (.sig t g)) := by
  have hn : x.nextSlot = (sigs g).nextSlot + 1 ∧ x.alive = (sigs g).alive := by
    unfold Sig.step at hs
    split at hs
    · cases hs
    cases hk : k.aware <;> rw [hk] at hs <;> simp only [Bool.false_eq_true, if_true, if_false, Sig.body] at hs
    all_goals
      split at hs
      · cases hs; exact ⟨rfl, rfl⟩
      · cases hs
  have hal : ∀ g', (upd sigs g x g').alive = (sigs g').alive := by
    intro g'
    by_cases e : g' = g
    · subst e; rw [upd_same]; exact hn.2
    · rw [upd_other _ _ e]
  have hns : ∀ g' sl k', Is (log ++ [.connected t g (sigs g).nextSlot k] ++ es.map (.sig t g)) g' sl k' ↔
      Is log g' sl k' ∨ (g' = g ∧ sl = (sigs g).nextSlot ∧ k' = k) := by
    intro g' sl k'
    constructor
    · rintro ⟨t', ht⟩
      rcases List.mem_append.1 ht with ht | ht
      · rcases List.mem_append.1 ht with ht | ht
        · exact .inl ⟨t', ht⟩
        · simp at ht; exact .inr ⟨ht.2.1, ht.2.2.1, ht.2.2.2⟩
      · simp at ht
    · rintro (h | ⟨rfl, rfl, rfl⟩)
      · exact (h.more _).more _
      · exact ⟨t, by simp⟩
  refine ⟨?_, ?_, ?_, ?_, ?_, ?_⟩
  · intro g'
    by_cases e : g' = g
    · subst e; rw [upd_same]; exact sig_reach (h.reach g') hs
    · rw [upd_other _ _ e]; exact h.reach g'
  · intro g'
    rw [sigLog_append, sigLog_append]
    rw [show sigLog g' [Ev.connected t g (sigs g).nextSlot k] = [] from rfl, List.append_nil]
    by_cases e : g' = g
    · subst e; rw [upd_same, sigLog_same, he, h.proj]
    · rw [upd_other _ _ e, sigLog_other t (Ne.symm e), List.append_nil]; exact h.proj g'
  · intro g' sl k' hk
    rcases (hns _ _ _).1 hk with hk | ⟨rfl, rfl, rfl⟩
    · have := h.conn _ _ _ hk
      by_cases e : g' = g
      · subst e
        rw [upd_same, upd_same, upd_other _ _ (Nat.ne_of_lt this.2)]
        exact ⟨this.1, Nat.lt_trans this.2 (by rw [hn.1]; exact Nat.lt_succ_self _)⟩
      · rw [upd_other _ _ e, upd_other _ _ e]; exact this
    · rw [upd_same, upd_same, upd_same]; exact ⟨rfl, by rw [hn.1]; exact Nat.lt_succ_self _⟩
  · intro g' sl hl
    by_cases e : g' = g
    · subst e
      rw [upd_same] at hl
      by_cases e : sl = (sigs g').nextSlot
      · rw [upd_same, e, upd_same]; exact (hns _ _ _).2 (.inr ⟨rfl, rfl, rfl⟩)
      · rw [upd_same, upd_other _ _ e]; exact (hns _ _ _).2 (.inl (h.made g' sl (by rw [hn.1] at hl; exact Nat.lt_of_le_of_ne (Nat.le_of_lt_succ hl) e)))
    · rw [upd_other _ _ e] at hl
      rw [upd_other _ _ e]; exact (hns _ _ _).2 (.inl (h.made g' sl hl))
  · intro g'
    rw [hal, h.dead g']
    constructor
    · rintro ⟨t', ht⟩; exact ⟨t', by simp [ht]⟩
    · rintro ⟨t', ht⟩; exact ⟨t', by simpa using ht⟩
  · intro g'
    by_cases e : g' = g
    · subst e; rw [upd_same]
      refine Sig.shut_step (h.shut g') hs ?_
      cases hk : k.aware <;> simp
    · rw [upd_other _ _ e]; exact h.shut g'

theorem Sound.destroys {sigs kinds log} (h : Sound sigs kinds log) {t : Tid} {g : SigId} {x : Sig.State Nat} {es : List (Sig.Ev Nat)}
    (hs : Sig.step (sigs g) .destroy = some x) (he : x.log = (sigs g).log ++ es) (hu : (sigs g).emission = none) :
    Sound (upd sigs g x) kinds (log ++ [.destroyed t g] ++ es.map (.sig t g)) := by
  have hn : x.nextSlot = (sigs g).nextSlot ∧ x.alive = false := by
    unfold Sig.step at hs
    split at hs
    · cases hs
    simp only [Sig.body] at hs
    split at hs
    · split at hs
      · next hc => rw [hu] at hc; cases hc
      · cases hs; exact ⟨rfl, rfl⟩
    · cases hs
  have hns : ∀ g' sl k', Is (log ++ [.destroyed t g] ++ es.map (.sig t g)) g' sl k' ↔ Is log g' sl k' := by
    intro g' sl k'
    constructor
    · rintro ⟨t', ht⟩; exact ⟨t', by simpa using ht⟩
    · intro h; exact (h.more _).more _
  have hx : ∀ g', (upd sigs g x g').nextSlot = (sigs g').nextSlot := by
    intro g'
    by_cases e : g' = g
    · subst e; rw [upd_same]; exact hn.1
    · rw [upd_other _ _ e]
  refine ⟨?_, ?_, ?_, ?_, ?_, ?_⟩
  · intro g'
    by_cases e : g' = g
    · subst e; rw [upd_same]; exact sig_reach (h.reach g') hs
    · rw [upd_other _ _ e]; exact h.reach g'
  · intro g'
    rw [sigLog_append, sigLog_append]
    rw [show sigLog g' [Ev.destroyed t g] = [] from rfl, List.append_nil]
    by_cases e : g' = g
    · subst e; rw [upd_same, sigLog_same, he, h.proj]
    · rw [upd_other _ _ e, sigLog_other t (Ne.symm e), List.append_nil]; exact h.proj g'
  · intro g' sl k hk; rw [hx]; exact h.conn g' sl k ((hns _ _ _).1 hk)
  · intro g' sl hl; rw [hx] at hl; exact (hns _ _ _).2 (h.made g' sl hl)
  · intro g'
    by_cases e : g' = g
    · subst e; rw [upd_same]; simp [hn.2]
    · rw [upd_other _ _ e, h.dead g']
      constructor
      · rintro ⟨t', ht⟩; exact ⟨t', by simp [ht]⟩
      · rintro ⟨t', ht⟩; simp [e] at ht; exact ⟨t', ht⟩
  · intro g'
    by_cases e : g' = g
    · subst e; rw [upd_same]; exact Sig.shut_step (h.shut g') hs (by simp)
    · rw [upd_other _ _ e]; exact h.shut g'

/-- Only undefined behaviour. -/
theorem Sound.same {sigs kinds log} (h : Sound sigs kinds log) {g : SigId} {a : Sig.Act Nat} {x : Sig.State Nat}
    (hs : Sig.step (sigs g) a = some x) (hx : x = { sigs g with ub := true }) : Sound (upd sigs g x) kinds log := by
  have hx' : ∀ g', (upd sigs g x g').nextSlot = (sigs g').nextSlot ∧ (upd sigs g x g').alive = (sigs g').alive ∧ (upd sigs g x g').log = (sigs g').log ∧
      (upd sigs g x g').aware = (sigs g').aware ∧ (upd sigs g x g').handles = (sigs g').handles ∧ (upd sigs g x g').slots = (sigs g').slots ∧
      (upd sigs g x g').emission = (sigs g').emission ∧ (upd sigs g x g').kept = (sigs g').kept := by
    intro g'
    by_cases e : g' = g
    · subst e; rw [upd_same, hx]; exact ⟨rfl, rfl, rfl, rfl, rfl, rfl, rfl, rfl⟩
    · rw [upd_other _ _ e]; exact ⟨rfl, rfl, rfl, rfl, rfl, rfl, rfl, rfl⟩
  refine ⟨?_, ?_, ?_, ?_, ?_, ?_⟩
  · intro g'
    by_cases e : g' = g
    · subst e; rw [upd_same]; exact sig_reach (h.reach g') hs
    · rw [upd_other _ _ e]; exact h.reach g'
  · intro g'; rw [(hx' g').2.2.1]; exact h.proj g'
  · intro g' sl k; rw [(hx' g').1]; exact h.conn g' sl k
  · intro g' sl; rw [(hx' g').1]; exact h.made g' sl
  · intro g'; rw [(hx' g').2.1]; exact h.dead g'
  · intro g'; unfold Sig.Shut; rw [(hx' g').2.1, (hx' g').2.2.2.2.2.1, (hx' g').2.2.2.2.2.2.1, (hx' g').2.2.2.2.2.2.2]; exact h.shut g'

/-! ### Functions that run -/

def runsF (g : SigId) (sl : SlotId) (a : Nat) : Frame → Bool
  | .user g' sl' a' _ | .job g' sl' a' => g' == g && sl' == sl && a' == a
  | _ => false

def holds (g : SigId) (sl : SlotId) (o : Obj) : Frame → Bool
  | .user g' sl' _ (some o') => g' == g && sl' == sl && o' == o
  | _ => false

/-- The slot's function is called by an executor. -/
def ByExec (l : List Ev) (g : SigId) (sl : SlotId) : Prop := Is l g sl .queued ∨ ∃ o, Is l g sl (.trackedQueued o)

def FrameOk (l : List Ev) : Frame → Prop
  | .user g sl _ none => Is l g sl .plain
  | .user g sl _ (some o) => Is l g sl (.tracked o)
  | .fwd g sl h _ => Is l g sl (.forward h)
  | .job g sl _ => ByExec l g sl
  | _ => True

theorem ByExec.more {l : List Ev} {g sl} (h : ByExec l g sl) (m : List Ev) : ByExec (l ++ m) g sl := by
  rcases h with h | ⟨o, h⟩
  · exact .inl (h.more m)
  · exact .inr ⟨o, h.more m⟩

theorem FrameOk.more {l : List Ev} {f : Frame} (h : FrameOk l f) (m : List Ev) : FrameOk (l ++ m) f := by
  cases f with
  | user g sl a o => cases o <;> exact Is.more h m
  | fwd => exact Is.more h m
  | job => exact ByExec.more h m
  | _ => trivial

structure Runs (active : List (Tid × SigId × SlotId × Obj)) (stk : Tid → List Frame) (jobs : List (SigId × SlotId × Nat)) (log : List Ev) : Prop where
  frames : ∀ t, ∀ f ∈ stk t, FrameOk log f
  posts : ∀ j ∈ jobs, ByExec log j.1 j.2.1
  runs : ∀ t g sl a, log.count (.ran t g sl a) = log.count (.returned t g sl a) + (stk t).countP (runsF g sl a)
  act : ∀ t g sl o, active.count (t, g, sl, o) = (stk t).countP (holds g sl o)
  post : ∀ g sl a, ByExec log g sl → log.countP (ranOf g sl a) + jobs.count (g, sl, a) ≤ log.countP (postedOf g sl a)

/-- Events that are not about functions that run. -/
def quiet : Ev → Bool
  | .ran .. | .returned .. | .posted .. => false
  | _ => true

theorem quiet_counts {es : List Ev} (h : ∀ e ∈ es, quiet e = true) (t g sl a) :
    es.count (.ran t g sl a) = 0 ∧ es.count (.returned t g sl a) = 0 ∧ es.countP (ranOf g sl a) = 0 ∧ es.countP (postedOf g sl a) = 0 := by
  refine ⟨?_, ?_, ?_, ?_⟩
  · rw [List.count_eq_zero]; intro hm; have := h _ hm; simp [quiet] at this
  · rw [List.count_eq_zero]; intro hm; have := h _ hm; simp [quiet] at this
  · rw [List.countP_eq_zero]; intro e he; have := h e he; cases e <;> simp_all [quiet, ranOf]
  · rw [List.countP_eq_zero]; intro e he; have := h e he; cases e <;> simp_all [quiet, postedOf]

/-- Other events. -/
theorem Runs.quiet {active stk jobs log} (h : Runs active stk jobs log) (es : List Ev) (hq : ∀ e ∈ es, quiet e = true)
    (hk : ∀ g sl, ByExec (log ++ es) g sl → ByExec log g sl ∨ ∀ a, log.countP (ranOf g sl a) + jobs.count (g, sl, a) = 0) : Runs active stk jobs (log ++ es) := by
  refine ⟨?_, ?_, ?_, h.act, ?_⟩
  · intro t f hf; exact (h.frames t f hf).more es
  · intro j hj; exact (h.posts j hj).more es
  · intro t g sl a
    obtain ⟨h1, h2, _, _⟩ := quiet_counts hq t g sl a
    rw [List.count_append, List.count_append, h1, h2]
    exact h.runs t g sl a
  · intro g sl a hb
    obtain ⟨_, _, h3, h4⟩ := quiet_counts hq 0 g sl a
    rw [List.countP_append, List.countP_append, h3, h4]
    rcases hk g sl hb with hb | h0
    · exact h.post g sl a hb
    · have := h0 a; omega

theorem ByExec.old {l es : List Ev} {g sl} (hk : ∀ e ∈ es, ∀ t g sl k, e ≠ .connected t g sl k) (h : ByExec (l ++ es) g sl) : ByExec l g sl := by
  have : ∀ k, Is (l ++ es) g sl k → Is l g sl k := by
    rintro k ⟨t, ht⟩
    rcases List.mem_append.1 ht with ht | ht
    · exact ⟨t, ht⟩
    · exact absurd rfl (hk _ ht t g sl k)
  rcases h with h | ⟨o, h⟩
  · exact .inl (this _ h)
  · exact .inr ⟨o, this _ h⟩

theorem Runs.quiet' {active stk jobs log} (h : Runs active stk jobs log) (es : List Ev) (hq : ∀ e ∈ es, Net.quiet e = true)
    (hk : ∀ e ∈ es, ∀ t g sl k, e ≠ .connected t g sl k) : Runs active stk jobs (log ++ es) :=
  h.quiet es hq fun _ _ hb => .inl (hb.old hk)

/-- Other frames. -/
theorem Runs.swap {active stk jobs log} (h : Runs active stk jobs log) {t : Tid} {st : List Frame} (hf : ∀ f ∈ st, FrameOk log f)
    (h1 : ∀ g sl a, st.countP (runsF g sl a) = (stk t).countP (runsF g sl a)) (h2 : ∀ g sl o, st.countP (holds g sl o) = (stk t).countP (holds g sl o)) :
    Runs active (upd stk t st) jobs log := by
  refine ⟨?_, h.posts, ?_, ?_, h.post⟩
  · intro t' f hm
    by_cases e : t' = t
    · subst e; rw [upd_same] at hm; exact hf f hm
    · rw [upd_other _ _ e] at hm; exact h.frames t' f hm
  · intro t' g sl a
    by_cases e : t' = t
    · subst e; rw [upd_same, h1]; exact h.runs t' g sl a
    · rw [upd_other _ _ e]; exact h.runs t' g sl a
  · intro t' g sl o
    by_cases e : t' = t
    · subst e; rw [upd_same, h2]; exact h.act t' g sl o
    · rw [upd_other _ _ e]; exact h.act t' g sl o

theorem count_one {x y : Ev} : List.count x [y] = if y = x then 1 else 0 := by
  rw [List.count_singleton]; simp [beq_iff_eq]

/-- A function is called directly. -/
theorem Runs.calls {sigs kinds active stk jobs log} (hS : Sound sigs kinds log) (h : Runs active stk jobs log) {t : Tid} {g : SigId} {sl : SlotId} {a : Nat} {o : Option Obj} {rest : List Frame}
    (hr : stk t = rest) (hk : Is log g sl (match o with | none => .plain | some o => .tracked o)) :
    Runs ((match o with | none => [] | some o => [(t, g, sl, o)]) ++ active) (upd stk t (.user g sl a o :: rest)) jobs (log ++ [.ran t g sl a]) := by
  have hby : ∀ g' sl', ByExec (log ++ [.ran t g sl a]) g' sl' → ByExec log g' sl' := fun g' sl' hb => hb.old (by simp)
  have hno : ¬ ByExec log g sl := by
    rintro (hb | ⟨o', hb⟩) <;> have := hS.unique hk hb <;> cases o <;> cases this
  refine ⟨?_, ?_, ?_, ?_, ?_⟩
  · intro t' f hm
    by_cases e : t' = t
    · subst e; rw [upd_same] at hm
      rcases List.mem_cons.1 hm with rfl | hm
      · cases o <;> exact hk.more _
      · exact (h.frames t' f (hr ▸ hm)).more _
    · rw [upd_other _ _ e] at hm; exact (h.frames t' f hm).more _
  · intro j hj; exact (h.posts j hj).more _
  · intro t' g' sl' a'
    rw [List.count_append, List.count_append, count_one, count_one]
    have := h.runs t' g' sl' a'
    by_cases e : t' = t
    · subst e; rw [upd_same, List.countP_cons, ← hr]
      by_cases e : g = g' ∧ sl = sl' ∧ a = a'
      · obtain ⟨rfl, rfl, rfl⟩ := e; simp [runsF]; omega
      · rw [if_neg (by simp; intro h1 h2 h3; exact e ⟨h1, h2, h3⟩), if_neg (by simp), if_neg (by simp [runsF]; intro h1 h2 h3; exact e ⟨h1, h2, h3⟩)]; omega
    · rw [upd_other _ _ e, if_neg (by simp [Ne.symm e]), if_neg (by simp)]; omega
  · intro t' g' sl' o'
    have := h.act t' g' sl' o'
    rw [List.count_append]
    by_cases e : t' = t
    · subst e; rw [upd_same, List.countP_cons, ← hr]
      cases o with
      | none => simp [holds]; exact this
      | some o =>
        simp only [List.count_singleton]
        by_cases e : g = g' ∧ sl = sl' ∧ o = o'
        · obtain ⟨rfl, rfl, rfl⟩ := e; simp [holds]; omega
        · rw [if_neg (by simp; intro h1 h2 h3; exact e ⟨h1, h2, h3⟩), if_neg (by simp [holds]; intro h1 h2 h3; exact e ⟨h1, h2, h3⟩)]; omega
    · rw [upd_other _ _ e]
      cases o with
      | none => simp; exact this
      | some o => rw [List.count_singleton, if_neg (by simp [Ne.symm e])]; omega
  · intro g' sl' a' hb
    have hb := hby _ _ hb
    have := h.post g' sl' a' hb
    rw [List.countP_append, List.countP_append]
    rw [show List.countP (ranOf g' sl' a') [Ev.ran t g sl a] = 0 by
      rw [List.countP_singleton, if_neg]
      simp [ranOf]; intro h1 h2 h3; subst h1; subst h2; exact hno hb]
    simp [postedOf]; exact this

/-- A function returns. -/
theorem Runs.returns {active stk jobs log} (h : Runs active stk jobs log) {t : Tid} {g : SigId} {sl : SlotId} {a : Nat} {f : Frame} {rest : List Frame}
    (hr : stk t = f :: rest) (active' : List (Tid × SigId × SlotId × Obj)) (hf : (f = .job g sl a ∨ f = .user g sl a none) ∧ active' = active ∨ ∃ o, f = .user g sl a (some o) ∧ active' = active.erase (t, g, sl, o)) :
    Runs active' (upd stk t rest) jobs (log ++ [.returned t g sl a]) := by
  have hrun : runsF g sl a f = true ∧ ∀ g' sl' a', runsF g' sl' a' f = true → g = g' ∧ sl = sl' ∧ a = a' := by
    rcases hf with ⟨rfl | rfl, -⟩ | ⟨o, rfl, -⟩ <;> exact ⟨by simp [runsF], fun g' sl' a' => by simp [runsF]; intro h1 h2 h3; exact ⟨h1, h2, h3⟩⟩
  refine ⟨?_, ?_, ?_, ?_, ?_⟩
  · intro t' f' hm
    by_cases e : t' = t
    · subst e; rw [upd_same] at hm; exact (h.frames t' f' (by rw [hr]; exact List.mem_cons_of_mem _ hm)).more _
    · rw [upd_other _ _ e] at hm; exact (h.frames t' f' hm).more _
  · intro j hj; exact (h.posts j hj).more _
  · intro t' g' sl' a'
    rw [List.count_append, List.count_append, count_one, count_one]
    have := h.runs t' g' sl' a'
    by_cases e : t' = t
    · subst e
      rw [hr, List.countP_cons] at this
      rw [upd_same]
      by_cases e : runsF g' sl' a' f = true
      · obtain ⟨rfl, rfl, rfl⟩ := hrun.2 _ _ _ e
        rw [if_pos e] at this; simp; omega
      · rw [if_neg e] at this
        rw [if_neg (by simp), if_neg (by rintro h; cases h; exact e hrun.1)]; omega
    · rw [upd_other _ _ e, if_neg (by simp), if_neg (by simp [Ne.symm e])]; omega
  · intro t' g' sl' o'
    have := h.act t' g' sl' o'
    rcases hf with ⟨hf, rfl⟩ | ⟨o, rfl, rfl⟩
    · by_cases e : t' = t
      · subst e
        rw [upd_same]
        rw [hr, List.countP_cons, if_neg (by rcases hf with rfl | rfl <;> simp [holds])] at this
        omega
      · rw [upd_other _ _ e]; exact this
    · rw [List.count_erase]
      by_cases e : t' = t
      · subst e
        rw [upd_same]
        rw [hr, List.countP_cons] at this
        by_cases e : g = g' ∧ sl = sl' ∧ o = o'
        · obtain ⟨rfl, rfl, rfl⟩ := e
          simp [holds] at this ⊢; omega
        · rw [if_neg (by simp [holds]; intro h1 h2 h3; exact e ⟨h1, h2, h3⟩)] at this
          rw [if_neg (by simp; intro h1 h2 h3; exact e ⟨h1, h2, h3⟩)]; omega
      · rw [upd_other _ _ e, if_neg (by simp [Ne.symm e])]; omega
  · intro g' sl' a' hb
    have := h.post g' sl' a' (hb.old (by simp))
    rw [List.countP_append, List.countP_append]
    simp [ranOf, postedOf]; exact this

/-- A function is given to the executor. -/
theorem Runs.queues {active stk jobs log} (h : Runs active stk jobs log) {t : Tid} {g : SigId} {sl : SlotId} {a : Nat} (hk : ByExec log g sl) :
    Runs active stk (jobs ++ [(g, sl, a)]) (log ++ [.posted t g sl a]) := by
  refine ⟨?_, ?_, ?_, h.act, ?_⟩
  · intro t' f hm; exact (h.frames t' f hm).more _
  · intro j hj
    rcases List.mem_append.1 hj with hj | hj
    · exact (h.posts j hj).more _
    · simp at hj; subst hj; exact hk.more _
  · intro t' g' sl' a'
    rw [List.count_append, List.count_append, count_one, count_one, if_neg (by simp), if_neg (by simp)]
    exact h.runs t' g' sl' a'
  · intro g' sl' a' hb
    have := h.post g' sl' a' (hb.old (by simp))
    rw [List.countP_append, List.countP_append, List.count_append, List.countP_singleton, List.countP_singleton, List.count_singleton]
    by_cases e : g = g' ∧ sl = sl' ∧ a = a'
    · obtain ⟨rfl, rfl, rfl⟩ := e; simp [ranOf, postedOf]; omega
    · rw [if_neg (by simp [ranOf]), if_neg (by simp; intro h1 h2 h3; exact e ⟨h1, h2, h3⟩), if_neg (by simp [postedOf]; intro h1 h2 h3; exact e ⟨h1, h2, h3⟩)]; omega

theorem count_eraseIdx {α : Type} [BEq α] [LawfulBEq α] (l : List α) (k : Nat) (x y : α) (h : l[k]? = some x) : List.count y (l.eraseIdx k) + (if x == y then 1 else 0) = List.count y l := by
  induction l generalizing k with
  | nil => simp at h
  | cons z l ih =>
    cases k with
    | zero => simp at h; subst h; simp [List.count_cons]
    | succ k =>
      simp at h
      have := ih k h
      simp only [List.eraseIdx_cons_succ, List.count_cons]; omega

/-- The executor calls it. -/
theorem Runs.execs {active stk jobs log} (h : Runs active stk jobs log) {t : Tid} {k : Nat} {g : SigId} {sl : SlotId} {a : Nat} (hk : jobs[k]? = some (g, sl, a)) :
    Runs active (upd stk t (.job g sl a :: stk t)) (jobs.eraseIdx k) (log ++ [.ran t g sl a]) := by
  have hj := h.posts _ (List.mem_of_getElem? hk)
  refine ⟨?_, ?_, ?_, ?_, ?_⟩
  · intro t' f hm
    by_cases e : t' = t
    · subst e; rw [upd_same] at hm
      rcases List.mem_cons.1 hm with rfl | hm
      · exact ByExec.more hj _
      · exact (h.frames t' f hm).more _
    · rw [upd_other _ _ e] at hm; exact (h.frames t' f hm).more _
  · intro j hj; exact (h.posts j (List.mem_of_mem_eraseIdx hj)).more _
  · intro t' g' sl' a'
    rw [List.count_append, List.count_append, count_one, count_one]
    have := h.runs t' g' sl' a'
    by_cases e : t' = t
    · subst e; rw [upd_same, List.countP_cons]
      by_cases e : g = g' ∧ sl = sl' ∧ a = a'
      · obtain ⟨rfl, rfl, rfl⟩ := e; simp [runsF]; omega
      · rw [if_neg (by simp; intro h1 h2 h3; exact e ⟨h1, h2, h3⟩), if_neg (by simp), if_neg (by simp [runsF]; intro h1 h2 h3; exact e ⟨h1, h2, h3⟩)]; omega
    · rw [upd_other _ _ e, if_neg (by simp [Ne.symm e]), if_neg (by simp)]; omega
  · intro t' g' sl' o'
    have := h.act t' g' sl' o'
    by_cases e : t' = t
    · subst e; rw [upd_same, List.countP_cons]; simp [holds]; exact this
    · rw [upd_other _ _ e]; exact this
  · intro g' sl' a' hb
    have := h.post g' sl' a' (hb.old (by simp))
    have hc := count_eraseIdx jobs k (g, sl, a) (g', sl', a') hk
    rw [List.countP_append, List.countP_append, List.countP_singleton, List.countP_singleton]
    by_cases e : g = g' ∧ sl = sl' ∧ a = a'
    · obtain ⟨rfl, rfl, rfl⟩ := e
      simp [ranOf, postedOf] at hc ⊢; omega
    · rw [if_neg (by simp; intro h1 h2 h3; exact e ⟨h1, h2, h3⟩)] at hc
      rw [if_neg (by simp [ranOf]; intro h1 h2 h3; exact e ⟨h1, h2, h3⟩), if_neg (by simp [postedOf])]; omega

theorem Runs.drops {active stk jobs log} (h : Runs active stk jobs log) (k : Nat) : Runs active stk (jobs.eraseIdx k) log := by
  refine ⟨h.frames, fun j hj => h.posts j (List.mem_of_mem_eraseIdx hj), h.runs, h.act, ?_⟩
  intro g sl a hb
  have := h.post g sl a hb
  have : (jobs.eraseIdx k).count (g, sl, a) ≤ jobs.count (g, sl, a) := (List.eraseIdx_sublist jobs k).count_le _
  omega

end Maf.Net
