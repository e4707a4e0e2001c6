import Verif.Lemmas.ProcessorLocks
import Verif.Props.Signal
/-
C18, C19, C20: one processor.
-/
namespace Maf.Proc
open Sig (WithinEmission)

/-! ### C18: order, exactly once, one at a time -/

/-- C18: what enters the queue leaves it in the same order, each exactly once: begun by a
thread, or thrown away by `stop`; the rest is still there. -/
theorem order_exactly_once (acts : List Act) (s : State) (h : run init acts = some s) :
    entries s.log = exits s.log ++ s.q := (full acts s h).base.fifo

/-- C18: the works that a thread's calls had accepted enter the queue in the order of the
calls, each exactly once (all but the one that is being inserted). -/
theorem accepted_in_program_order (acts : List Act) (s : State) (h : run init acts = some s) (t : Tid) :
    ∃ now, acceptedBy t s.log = enteredBy t s.log ++ now ∧ now.length ≤ 1 := by
  refine ⟨_, (full acts s h).base.acc t, ?_⟩
  cases hs : s.stk t with
  | nil => simp [pushOf]
  | cons f r => cases f <;> simp [pushOf]

/-- C18: what a thread has taken it runs, in that order, each exactly once. -/
theorem begun_is_run (acts : List Act) (s : State) (h : run init acts = some s) (t : Tid) :
    ∃ now, beganBy t s.log = ranBy t s.log ++ now ∧ now.length ≤ 1 := by
  refine ⟨_, (full acts s h).base.beg t, ?_⟩
  cases hs : s.stk t with
  | nil => simp [takenOf]
  | cons f r => cases f <;> simp [takenOf]

/-- Every event obeys the rules. -/
theorem rules (acts : List Act) (s : State) (h : run init acts = some s) (l : List Ev) (e : Ev) (m : List Ev)
    (hl : s.log = l ++ e :: m) : EvOk l e := (full acts s h).base.hist.all l e m hl

/-- Every event of a dispatch obeys the rules. -/
theorem dispatch_rules (acts : List Act) (s : State) (h : run init acts = some s) (l : List Ev) (e : Ev) (m : List Ev)
    (hl : s.log = l ++ e :: m) : CallOk l e := (full acts s h).calls.all l e m hl

theorem depth_step_le (t : Tid) (l : List Ev) (n : Nat) :
    l.foldl (depthStep t) n ≤ n ∨ ∃ a b, l = a ++ .runStart t :: b := by
  induction l generalizing n with
  | nil => exact Or.inl (Nat.le_refl _)
  | cons e l ih =>
    rcases ih (depthStep t n e) with h | ⟨a, b, rfl⟩
    · by_cases he : e = .runStart t
      · subst he; exact Or.inr ⟨[], l, rfl⟩
      · left
        rw [List.foldl_cons]
        refine Nat.le_trans h ?_
        cases e <;> simp only [depthStep] <;> try exact Nat.le_refl _
        · split
          · next hu => subst hu; exact absurd rfl he
          · exact Nat.le_refl _
        · split <;> omega
    · exact Or.inr ⟨e :: a, b, rfl⟩

/-- A thread inside a run call has called it. -/
theorem run_called {t : Tid} {l : List Ev} (h : 0 < depthOf t l) : Ev.runStart t ∈ l := by
  rcases depth_step_le t l 0 with h' | ⟨a, b, rfl⟩
  · simp only [depthOf] at h; omega
  · simp

/-- Without nested run calls, a thread is in at most one. -/
theorem depth_le_one {t : Tid} (l : List Ev) (hn : ∀ a b, l = a ++ .runStart t :: b → depthOf t a = 0) : depthOf t l ≤ 1 := by
  suffices ∀ (l2 l1 : List Ev), l = l1 ++ l2 → depthOf t l1 ≤ 1 → depthOf t l ≤ 1 from this l [] rfl (by simp [depthOf])
  intro l2
  induction l2 with
  | nil => intro l1 h h1; rw [h]; simpa using h1
  | cons e l2 ih =>
    intro l1 h h1
    refine ih (l1 ++ [e]) (by simp [h]) ?_
    rw [depthOf_append]
    simp only [List.foldl_cons, List.foldl_nil]
    cases e <;> simp only [depthStep] <;> try exact h1
    · split
      · next hu => subst hu; rw [hn l1 l2 h]; exact Nat.le_refl _
      · exact h1
    · split <;> omega

/-- Queued works, in the order in which their code started. -/
def ranAll (l : List Ev) : List Work := l.filterMap fun | .ran _ w => some w | _ => none

/-- C18: queued work runs on a thread that is inside a run call of the processor. -/
theorem on_run_thread (acts : List Act) (s : State) (h : run init acts = some s) (l m : List Ev) (t : Tid) (w : Work)
    (hl : s.log = l ++ .ran t w :: m) : 0 < depthOf t l ∧ Ev.runStart t ∈ l := by
  have := rules acts s h _ _ _ hl
  simp only [EvOk] at this
  have h0 : 0 < depthOf t l := by omega
  exact ⟨h0, run_called h0⟩

/-- C18: if the processor's run calls are not nested, no queued work starts on a thread while
another one is being executed there. -/
theorem one_at_a_time (acts : List Act) (s : State) (h : run init acts = some s) (l m : List Ev) (t : Tid) (w : Work)
    (hl : s.log = l ++ .ran t w :: m) (hn : ∀ a b, l = a ++ .runStart t :: b → depthOf t a = 0) : openWork t l = [] := by
  have := rules acts s h _ _ _ hl
  simp only [EvOk] at this
  have hd := depth_le_one l hn
  exact List.eq_nil_of_length_eq_zero (by omega)

theorem exits_eq_began {r : Tid} (l : List Ev) (hc : ∀ w, Ev.cleared w ∉ l) (hr : ∀ t w, Ev.began t w ∈ l → t = r) :
    exits l = beganBy r l := by
  induction l with
  | nil => rfl
  | cons e l ih =>
    have ih := ih (fun w hw => hc w (by simp [hw])) (fun t w hw => hr t w (by simp [hw]))
    simp only [exits, beganBy] at ih ⊢
    cases e <;> simp only [List.filterMap_cons] <;> try exact ih
    · next t w =>
      rw [if_pos (hr t w (by simp))]
      simpa using ih
    · next w => exact absurd List.mem_cons_self (hc w)

theorem ranAll_eq {r : Tid} (l : List Ev) (hr : ∀ t w, Ev.ran t w ∈ l → t = r) : ranAll l = ranBy r l := by
  induction l with
  | nil => rfl
  | cons e l ih =>
    have ih := ih (fun t w hw => hr t w (by simp [hw]))
    simp only [ranAll, ranBy] at ih ⊢
    cases e <;> simp only [List.filterMap_cons] <;> try exact ih
    · next t w =>
      rw [if_pos (hr t w (by simp))]
      simpa using ih

theorem closed_was {l : List Ev} (h : closedOf l = true) : ∃ u, Ev.closed u ∈ l := by
  suffices ∀ (l : List Ev) b, l.foldl closedStep b = true → b = true ∨ ∃ u, Ev.closed u ∈ l by
    rcases this l false h with h | h
    · cases h
    · exact h
  intro l
  induction l with
  | nil => intro b h; exact Or.inl h
  | cons e l ih =>
    intro b h
    rcases ih _ h with h' | ⟨u, hu⟩
    · cases e <;> simp only [closedStep] at h' <;> try exact Or.inl h'
      · next t => exact Or.inr ⟨t, by simp⟩
      · cases h'
    · exact Or.inr ⟨u, by simp [hu]⟩


/-- C18: if one thread `r` runs the processor and no stop has thrown work away, all queued
work starts on `r`, in the order in which it entered the queue, each exactly once; what has
not started is still to come in that order. -/
theorem single_runner (acts : List Act) (s : State) (h : run init acts = some s) (r : Tid)
    (hr : ∀ t, Ev.runStart t ∈ s.log → t = r) (hc : ∀ w, Ev.cleared w ∉ s.log) :
    ∃ pending, entries s.log = ranAll s.log ++ pending ∧ pending.length ≤ s.q.length + 1 := by
  have hbe : ∀ t w, Ev.began t w ∈ s.log → t = r := by
    intro t w hm
    obtain ⟨a, b, hab⟩ := List.append_of_mem hm
    have := rules acts s h _ _ _ hab
    exact hr t (by rw [hab]; exact List.mem_append_left _ (run_called this.2))
  have hra : ∀ t w, Ev.ran t w ∈ s.log → t = r := by
    intro t w hm
    obtain ⟨a, b, hab⟩ := List.append_of_mem hm
    exact hr t (by rw [hab]; exact List.mem_append_left _ (on_run_thread acts s h _ _ _ _ hab).2)
  obtain ⟨now, h1, h2⟩ := begun_is_run acts s h r
  refine ⟨now ++ s.q, ?_, by simp; omega⟩
  rw [order_exactly_once acts s h, exits_eq_began s.log hc hbe, h1, ranAll_eq s.log hra, List.append_assoc]

/-- C18, progress: a thread waiting in a run call of a processor that is not stopped takes the
oldest queued work. -/
theorem next_is_taken (acts : List Act) (s : State) (h : run init acts = some s) (hu : s.ub = false) (t : Tid)
    (k : Loop) (b : Bool) (rest : List Frame) (hst : s.stk t = .loop k b :: rest) (hc : closedOf s.log = false)
    (w : Work) (q : List Work) (hq : s.q = w :: q) :
    ∃ s', step s (.take t) = some s' ∧ s'.log = s.log ++ [.began t w] ∧ s'.q = q := by
  have hcl : s.closed = false := by rw [← (full acts s h).base.closed]; exact hc
  simp only [step, hu, body, hst, hcl, hq, emitLog, setStk]
  exact ⟨_, rfl, rfl, rfl⟩

/-! ### C19: stop -/

theorem closed_stays {l : List Ev} (h : ∀ t, Ev.reopened t ∉ l) : l.foldl closedStep true = true := by
  induction l with
  | nil => rfl
  | cons e l ih =>
    have ih := ih (fun t ht => h t (by simp [ht]))
    rw [List.foldl_cons]
    cases e <;> simp only [closedStep] <;> try exact ih
    · next t => exact absurd List.mem_cons_self (h t)

/-- C19: after a stop, as long as the processor is not reused, nothing is taken from the
queue, nothing runs inline, no push is accepted, and no call that started after the stop
returns true. -/
theorem stopped_executes_nothing (acts : List Act) (s : State) (h : run init acts = some s) (l m : List Ev) (t : Tid)
    (hl : s.log = l ++ .closed t :: m) (hm : ∀ u, Ev.reopened u ∉ m) :
    (∀ u w, Ev.began u w ∉ m) ∧ (∀ u n, Ev.inlined u n ∉ m) ∧ (∀ u w, Ev.accepted u w ∉ m) ∧
    ∀ a b c u w w', m = a ++ .asked u w' :: b ++ .result u w true :: c → False := by
  have hcl : ∀ a e b, m = a ++ e :: b → closedOf (l ++ .closed t :: a) = true := by
    intro a e b hab
    rw [closedOf_append, List.foldl_cons]
    exact closed_stays (fun u hu => hm u (by rw [hab]; simp [hu]))
  have hrule : ∀ a e b, m = a ++ e :: b → EvOk (l ++ .closed t :: a) e := by
    intro a e b hab
    exact rules acts s h _ e b (by rw [hl, hab]; simp)
  refine ⟨?_, ?_, ?_, ?_⟩
  · intro u w hm'
    obtain ⟨a, b, hab⟩ := List.append_of_mem hm'
    have := (hrule _ _ _ hab).1
    rw [hcl _ _ _ hab] at this; cases this
  · intro u w hm'
    obtain ⟨a, b, hab⟩ := List.append_of_mem hm'
    have := (hrule _ _ _ hab).1
    rw [hcl _ _ _ hab] at this; cases this
  · intro u w hm'
    obtain ⟨a, b, hab⟩ := List.append_of_mem hm'
    have := hrule _ _ _ hab
    simp only [EvOk] at this
    rw [hcl _ _ _ hab] at this; cases this
  · intro a b c u w w' hab
    obtain ⟨x, y, hxy, hres⟩ := hrule (a ++ .asked u w' :: b) _ c (by rw [hab])
    rw [if_pos rfl] at hres
    obtain ⟨hx, hy, -⟩ := hres
    have hask : ∀ w'', Ev.asked u w'' ∉ y := by
      intro w'' hm'
      have : Ev.asked u w'' ∈ callEvs u y := by simp [callEvs, callEv, hm']
      rcases hy with hy | hy <;> rw [hy] at this <;> simp at this
    -- the call's start is not before the last `asked` of its thread
    rcases List.append_eq_append_iff.1 hxy with ⟨z, hz1, hz2⟩ | ⟨z, hz1, hz2⟩
    · cases z with
      | nil => simp at hz1 hz2
      | cons e z =>
        rw [List.cons_append] at hz2
        injection hz2 with hz2 hz3
        subst hz2
        have hz4 : x = l ++ .closed t :: z := hz1
        rw [hz4] at hx
        have hpre : closedOf (l ++ .closed t :: z) = true := by
          rw [closedOf_append, List.foldl_cons]
          refine closed_stays (fun v hv => hm v ?_)
          rw [hab, hz3]; simp [hv]
        rw [hpre] at hx; cases hx
    · cases z with
      | nil => simp at hz2
      | cons e z =>
        rw [List.cons_append] at hz2
        injection hz2 with hz2 hz3
        exact hask w' (by rw [hz3]; simp)

/-- C19: when `stop` has cleared the queue, everything that ever entered it has been begun or
thrown away. -/
theorem stop_clears (acts : List Act) (s s' : State) (h : run init acts = some s) (t : Tid)
    (hs : step s (.doClear t) = some s') : entries s'.log = exits s'.log := by
  have hb := base_step (full acts s h).base hs
  have := hb.fifo
  replace hs := (step_body hs).2
  simp only [body] at hs
  split at hs
  · cases hs; simpa using this
  · cases hs

/-- C19: what was pending at the stop is not executed later, even if the processor is reused:
from then on, only what enters afterwards leaves the queue. -/
theorem pending_is_gone (acts acts' : List Act) (s s' : State) (h : run init acts = some s) (h' : run s acts' = some s')
    (hgone : entries s.log = exits s.log) : ∃ m, s'.log = s.log ++ m ∧ entries m = exits m ++ s'.q := by
  have hgrow : ∀ (acts' : List Act) (s : State), run s acts' = some s' → ∃ m, s'.log = s.log ++ m := by
    intro acts'
    induction acts' with
    | nil => intro s h; cases h; exact ⟨[], by simp⟩
    | cons a as ih =>
      intro s h
      simp only [run] at h
      cases hs : step s a with
      | none => rw [hs] at h; cases h
      | some s1 =>
        rw [hs] at h
        obtain ⟨es, he⟩ := step_grows hs
        obtain ⟨m, hm⟩ := ih s1 h
        exact ⟨es ++ m, by rw [hm, he]; simp⟩
  obtain ⟨m, hm⟩ := hgrow acts' s h'
  refine ⟨m, hm, ?_⟩
  have hr : run init (acts ++ acts') = some s' := by rw [run_append, h]; exact h'
  have := order_exactly_once _ _ hr
  rw [hm, entries_append, exits_append, hgone, List.append_assoc] at this
  exact List.append_cancel_left this

theorem opened_then_closed {x y : List Ev} (hx : closedOf x = false) (hy : closedOf (x ++ y) = true) : ∃ u, Ev.closed u ∈ y := by
  rw [closedOf_append, hx] at hy
  exact closed_was hy

/-- C19, partial: a call that returns true had the work put into the queue, unless a stop
happened during the call. Missing for "will run unless a stop happens": nothing in safety
(see `order_exactly_once`, `next_is_taken`); a stop may drop the work silently, see
`true_though_dropped`. -/
theorem true_means_queued_partial (acts : List Act) (s : State) (h : run init acts = some s) (l m : List Ev) (t : Tid) (w : Work)
    (hl : s.log = l ++ .result t w true :: m) :
    ∃ x y, l = x ++ .asked t w :: y ∧ closedOf x = false ∧ (∀ w', Ev.asked t w' ∉ y) ∧ (Ev.entered t w ∈ y ∨ ∃ u, Ev.closed u ∈ y) := by
  obtain ⟨x, y, hxy, hres⟩ := rules acts s h _ _ _ hl
  rw [if_pos rfl] at hres
  obtain ⟨hx, hy, -⟩ := hres
  have hmem : ∀ e, e ∈ callEvs t y → e ∈ y := fun e he => (List.mem_filter.1 he).1
  refine ⟨x, y, hxy, hx, ?_, ?_⟩
  · intro w'' hm'
    have : Ev.asked t w'' ∈ callEvs t y := by simp [callEvs, callEv, hm']
    rcases hy with hy | hy <;> rw [hy] at this <;> simp at this
  · rcases hy with hy | hy
    · exact Or.inl (hmem _ (by rw [hy]; simp))
    · have hd : Ev.dropped t w ∈ y := hmem _ (by rw [hy]; simp)
      obtain ⟨a, b, hab⟩ := List.append_of_mem hd
      have hr := rules acts s h (x ++ .asked t w :: a) (.dropped t w) (b ++ .result t w true :: m) (by rw [hl, hxy, hab]; simp)
      simp only [EvOk] at hr
      obtain ⟨u, hu⟩ := opened_then_closed hx (y := .asked t w :: a) hr
      simp at hu
      exact Or.inr ⟨u, by rw [hab]; simp [hu]⟩

/-- C19: a call that returns false has queued nothing, and the processor was stopped, or no
handler was connected for the message. -/
theorem false_means_refused (acts : List Act) (s : State) (h : run init acts = some s) (l m : List Ev) (t : Tid) (w : Work)
    (hl : s.log = l ++ .result t w false :: m) :
    ∃ x y, l = x ++ .asked t w :: y ∧ callEvs t y = [] ∧ (closedOf l = true ∨ ∃ m, w = .msg m ∧ handlersOf m.ty l = []) := by
  obtain ⟨x, y, hxy, hres⟩ := rules acts s h _ _ _ hl
  rw [if_neg (by simp)] at hres
  exact ⟨x, y, hxy, hres⟩

/-! ### C20: dispatch -/

theorem dispatch_unique (acts : List Act) (s : State) (h : run init acts = some s) {d : Nat} {t t' : Tid} {m m' : Msg} {o o' : Option SigId}
    {l1 l2 l1' l2' l3 : List Ev} (hl : s.log = l1 ++ .processing t d m o :: l2 ++ l3)
    (he : l1 ++ .processing t d m o :: l2 = l1' ++ .processing t' d m' o' :: l2') :
    l1 = l1' ∧ Ev.processing t d m o = .processing t' d m' o' ∧ l2 = l2' := by
  have r1 := rules acts s h l1 (.processing t d m o) (l2 ++ l3) (by rw [hl]; simp)
  have r2 := rules acts s h l1' (.processing t' d m' o') (l2' ++ l3) (by rw [hl, he]; simp)
  rcases List.append_eq_append_iff.1 he with ⟨z, hz1, hz2⟩ | ⟨z, hz1, hz2⟩
  · cases z with
    | nil => simp at hz1 hz2; exact ⟨hz1.symm, by simpa using hz2.1, hz2.2⟩
    | cons e z =>
      rw [List.cons_append] at hz2
      injection hz2 with hz2 hz3
      exact absurd (by rw [hz1, ← hz2]; simp) (r2.2 t m o)
  · cases z with
    | nil => simp at hz1 hz2; obtain ⟨⟨rfl, rfl, rfl⟩, rfl⟩ := hz2; exact ⟨hz1, rfl, rfl⟩
    | cons e z =>
      rw [List.cons_append] at hz2
      injection hz2 with hz2 hz3
      exact absurd (by rw [hz1, ← hz2]; simp) (r1.2 t' m' o')

theorem entry_of_entryOf {ty : Ty} {g : SigId} {l : List Ev} (h : entryOf ty l = some g) : Ev.entry ty g ∈ l := by
  suffices ∀ (l : List Ev) o, l.foldl (entryStep ty) o = some g → o = some g ∨ Ev.entry ty g ∈ l by
    rcases this l none h with h | h
    · cases h
    · exact h
  intro l
  induction l with
  | nil => intro o h; exact Or.inl h
  | cons e l ih =>
    intro o h
    rcases ih _ h with h' | hu
    · cases e <;> simp only [entryStep] at h' <;> try exact Or.inl h'
      · split at h'
        · next hty => cases h'; subst hty; exact Or.inr (by simp)
        · exact Or.inl h'
      · split at h'
        · cases h'
        · exact Or.inl h'
    · exact Or.inr (by simp [hu])

theorem dropWhile_first {α : Type} (p : α → Bool) (x y : List α) (e : α) (hx : ∀ a ∈ x, p a = true) (he : p e = false) :
    (x ++ e :: y).dropWhile p = e :: y := by
  induction x with
  | nil => simp [he]
  | cons a x ih => simp [hx a (by simp), ih fun b hb => hx b (by simp [hb])]

theorem takeWhile_first {α : Type} (p : α → Bool) (x y : List α) (e : α) (hx : ∀ a ∈ x, p a = true) (he : p e = false) :
    (x ++ e :: y).takeWhile p = x := by
  induction x with
  | nil => simp [he]
  | cons a x ih => simp [hx a (by simp), ih fun b hb => hx b (by simp [hb])]

theorem takeWhile_all {α : Type} (p : α → Bool) (x : List α) (hx : ∀ a ∈ x, p a = true) : x.takeWhile p = x := by
  induction x with
  | nil => rfl
  | cons a x ih => simp [hx a (by simp), ih fun b hb => hx b (by simp [hb])]

theorem dropWhile_all {α : Type} (p : α → Bool) (x : List α) (hx : ∀ a ∈ x, p a = true) : x.dropWhile p = [] := by
  induction x with
  | nil => rfl
  | cons a x ih => simp [hx a (by simp), ih fun b hb => hx b (by simp [hb])]

/-- C20: what a dispatch of message `m` does, from its start (`processing`) to its end
(`processed`). It uses the handlers object serving exactly the message's type at its start;
if there is none, nothing happens. Otherwise it calls handlers in connection order (tickets
increase, so none is called twice), always with `m`; every handler connected for the type at
the start is called unless it is disconnected before the calls are over; and every handler
called is connected at the moment of the call. -/
theorem dispatch_exact (acts : List Act) (s : State) (h : run init acts = some s) (l1 l2 l3 : List Ev) (t : Tid) (d : Nat)
    (m : Msg) (o : Option SigId) (hl : s.log = l1 ++ .processing t d m o :: l2 ++ .processed t d :: l3) :
    o = entryOf m.ty l1 ∧ (o = none → l2 = []) ∧
    ∀ g, o = some g →
      ((dispatchCalls t d g l2).map fun c => c.1).Pairwise (· < ·) ∧
      (∀ c ∈ dispatchCalls t d g l2, c.2.2 = m) ∧
      (∀ k sl, (k, sl) ∈ handlersOf m.ty l1 →
        (∀ s', Sig.Ev.removed k s' ∉ sigLog g (l2.takeWhile (· != .emitEnd t d))) → (k, sl, m) ∈ dispatchCalls t d g l2) ∧
      (∀ k sl m', (k, sl, m') ∈ dispatchCalls t d g l2 → ∃ x y, sigLog g l2 = x ++ .called k sl m' :: y ∧
        (k, sl) ∈ Sig.connections (sigLog g l1 ++ x)) := by
  have hr := rules acts s h l1 (.processing t d m o) (l2 ++ .processed t d :: l3) (by rw [hl]; simp)
  have ho := hr.1
  refine ⟨ho, ?_⟩
  obtain ⟨m', o', l1', l2', he, hd⟩ := dispatch_rules acts s h _ (.processed t d) l3 hl
  obtain ⟨e1, e2, e3⟩ := dispatch_unique acts s h hl he
  subst e1; subst e3; cases e2
  cases o with
  | none => exact ⟨fun _ => hd, fun g hg => by cases hg⟩
  | some g =>
    refine ⟨fun hn => by (cases hn), ?_⟩
    intro g' hg'
    cases hg'
    have hof : handlersOf m.ty l1 = Sig.connections (sigLog g l1) := by simp only [handlersOf, ← ho]
    rw [hof]
    have hnt : ∀ {x : List Ev} (_ : ∀ e ∈ x, e.tid ≠ some t) (f : Ev), f.tid = some t → ∀ e ∈ x, (e != f) = true := by
      intro x hx f hf e hm
      simp only [bne_iff_ne, ne_eq]
      intro e'; subst e'; exact hx _ hm hf
    rcases hd with ⟨x, z, hlx, hx, hz, hc⟩ | ⟨x, y, z, w, hlx, hx, hz, hy, hw, hne⟩
    · have hcalls : dispatchCalls t d g l2 = [] := by
        have : l2.dropWhile (· != .emitBegin t d) = [] := by
          refine dropWhile_all _ _ ?_
          intro e hm
          rw [hlx] at hm
          rcases List.mem_append.1 hm with hm | hm
          · exact hnt hx _ rfl e hm
          · rcases List.mem_cons.1 hm with rfl | hm
            · rfl
            · obtain ⟨k, sl, rfl⟩ := hz e hm; rfl
        simp [dispatchCalls, this, sigLog, Sig.callsIn]
      rw [hcalls]
      refine ⟨by simp, by simp, ?_, by simp⟩
      intro k sl hk hno
      exfalso
      have hin : (k, sl) ∈ Sig.connections (sigLog g (l1 ++ x)) := by
        rw [sigLog_append, Sig.connections_append]
        refine Sig.stays_connected _ _ hk ?_
        intro s' hs'
        refine hno s' ?_
        have : l2.takeWhile (· != .emitEnd t d) = l2 := by
          refine takeWhile_all _ _ ?_
          intro e hm
          rw [hlx] at hm
          rcases List.mem_append.1 hm with hm | hm
          · exact hnt hx _ rfl e hm
          · rcases List.mem_cons.1 hm with rfl | hm
            · rfl
            · obtain ⟨k, sl, rfl⟩ := hz e hm; rfl
        rw [this, hlx, sigLog_append]
        exact List.mem_append_left _ hs'
      rw [hc] at hin
      cases hin
    · have h1 : l2.dropWhile (· != .emitBegin t d) = .emitBegin t d :: (y ++ .emitEnd t d :: z) := by
        rw [hlx, List.append_assoc, List.cons_append]
        exact dropWhile_first _ _ _ _ (hnt hx _ rfl) (by simp)
      have hny : ∀ a ∈ y, (a != .emitEnd t d) = true := by
        intro a ha
        simp only [bne_iff_ne, ne_eq]
        intro e; subst e; exact hne ha
      have h2 : dispatchCalls t d g l2 = Sig.callsIn w := by
        simp only [dispatchCalls]
        rw [h1, ← List.cons_append, takeWhile_first _ (.emitBegin t d :: y) z _ _ (by simp)]
        · have : sigLog g (.emitBegin t d :: y) = sigLog g y := by simp [sigLog]
          rw [this, hy]
          simp [Sig.callsIn]
        · intro a ha
          rcases List.mem_cons.1 ha with rfl | ha
          · rfl
          · exact hny a ha
      have h3 : l2.takeWhile (· != .emitEnd t d) = x ++ .emitBegin t d :: y := by
        rw [hlx]
        refine takeWhile_first _ _ _ _ ?_ (by simp)
        intro a ha
        rcases List.mem_append.1 ha with ha | ha
        · exact hnt hx _ rfl a ha
        · rcases List.mem_cons.1 ha with rfl | ha
          · rfl
          · exact hny a ha
      have hy' : sigLog g l2 = sigLog g x ++ .emitted m :: w ++ .emissionDone :: sigLog g z := by
        have h4 : sigLog g (.emitBegin t d :: y) = sigLog g y := by simp [sigLog]
        have h5 : sigLog g (.emitEnd t d :: z) = sigLog g z := by simp [sigLog]
        rw [hlx, sigLog_append, sigLog_append, h4, h5, hy]
        simp
      have hsi := (full acts s h).base.si
      obtain ⟨sa, hsa⟩ := hsi.reach g
      have hlog : (s.sigs g).log = (sigLog g l1 ++ sigLog g x) ++ .emitted m :: w ++ .emissionDone :: (sigLog g z ++ sigLog g (.processed t d :: l3)) := by
        rw [← hsi.log g, hl, sigLog_append, sigLog_append]
        have h4 : sigLog g (.processing t d m (some g) :: l2) = sigLog g l2 := by simp [sigLog]
        rw [h4, hy']
        simp
      obtain ⟨k1, k2, k3, k4⟩ := Sig.emission_exact sa (s.sigs g) hsa _ _ _ m hlog hw
      rw [h2]
      refine ⟨k1, k2, ?_, ?_⟩
      · intro k sl hk hno
        rw [h3, sigLog_append] at hno
        have h4 : sigLog g (.emitBegin t d :: y) = sigLog g y := by simp [sigLog]
        rw [h4, hy] at hno
        refine k4 k sl ?_ ?_
        · rw [Sig.connections_append]
          exact Sig.stays_connected _ _ hk fun s' hs' => hno s' (List.mem_append_left _ hs')
        · intro s' hs'
          exact hno s' (by simp [hs'])
      · intro k sl m' hk
        simp only [Sig.callsIn, List.mem_filterMap] at hk
        obtain ⟨e, hel, hee⟩ := hk
        have : e = .called k sl m' := by
          cases e <;> simp at hee
          obtain ⟨rfl, rfl, rfl⟩ := hee; rfl
        subst this
        obtain ⟨a, b, hab⟩ := List.append_of_mem hel
        have := k3 a k sl m' b hab
        refine ⟨sigLog g x ++ .emitted m :: a, b ++ .emissionDone :: sigLog g z, by rw [hy', hab]; simp, ?_⟩
        simpa [List.append_assoc] using this

/-- C20: nobody but `disconnect` takes a handler away: a handler connected for a type stays
connected for it until a thread's `disconnect` for the type, or of this handler. -/
theorem handlers_kept (acts : List Act) (s : State) (h : run init acts = some s) (l m : List Ev) (ty : Ty) (g : SigId)
    (p : Nat × Sig.SlotId) (hl : s.log = l ++ m) (hg : entryOf ty l = some g) (hp : p ∈ handlersOf ty l)
    (hd : ∀ t, Ev.entryGone (some t) ty ∉ m) (hr : ∀ t sl, Ev.sig t g (.removed p.1 sl) ∉ m) :
    entryOf ty s.log = some g ∧ p ∈ handlersOf ty s.log := by
  suffices ∀ (m l : List Ev), s.log = l ++ m → entryOf ty l = some g → p ∈ Sig.connections (sigLog g l) →
      (∀ t, Ev.entryGone (some t) ty ∉ m) → (∀ t sl, Ev.sig t g (.removed p.1 sl) ∉ m) →
      entryOf ty s.log = some g ∧ p ∈ Sig.connections (sigLog g s.log) by
    simp only [handlersOf, hg] at hp
    obtain ⟨h1, h2⟩ := this m l hl hg hp hd hr
    exact ⟨h1, by simp only [handlersOf, h1]; exact h2⟩
  clear hl hg hp hd hr l m
  intro m
  induction m with
  | nil => intro l hl hg hp _ _; rw [hl, List.append_nil]; exact ⟨hg, hp⟩
  | cons e m ih =>
    intro l hl hg hp hd hr
    have hk := rules acts s h l e m hl
    refine ih (l ++ [e]) (by simp [hl]) ?_ ?_ (fun t hm => hd t (by simp [hm])) (fun t sl hm => hr t sl (by simp [hm]))
    · rw [entryOf_append, hg]
      cases e <;> try rfl
      · next ty' g' =>
        simp only [EvOk] at hk
        simp only [List.foldl_cons, List.foldl_nil, entryStep]
        split
        · next e => subst e; rw [hg] at hk; cases hk
        · rfl
      · next o ty' =>
        simp only [List.foldl_cons, List.foldl_nil, entryStep]
        split
        · next e =>
          subst e
          cases o with
          | some t => exact absurd List.mem_cons_self (hd t)
          | none =>
            simp only [EvOk, handlersOf, hg] at hk
            rw [hk] at hp; cases hp
        · rfl
    · rw [sigLog_append]
      cases e <;> try (simpa [sigLog] using hp)
      next t g' e =>
      by_cases hgg : g' = g
      · subst hgg
        have hx : sigLog g' [Ev.sig t g' e] = [e] := by simp [sigLog]
        rw [hx]
        simp only [Sig.connections, List.foldl_append, List.foldl_cons, List.foldl_nil] at hp ⊢
        cases e <;> simp only [Sig.liveStep] <;> try exact hp
        · exact List.mem_append_left _ hp
        · next k sl =>
          refine List.mem_filter.2 ⟨hp, ?_⟩
          simp only [bne_iff_ne, ne_eq]
          intro e
          exact hr t sl (by simp [e])
      · have hx : sigLog g [Ev.sig t g' e] = [] := by simp [sigLog, hgg]
        rw [hx, List.append_nil]; exact hp

/-- C20: a handler is called only with messages of exactly the type it was connected for, by
a dispatch of that message in progress on the same thread. -/
theorem own_type (acts : List Act) (s : State) (h : run init acts = some s) (l1 l2 : List Ev) (t u : Tid) (g : SigId)
    (k : Nat) (sl : Sig.SlotId) (m : Msg) (ty : Ty)
    (hl : s.log = l1 ++ .sig t g (.called k sl m) :: l2) (hc : Ev.connectedTo u ty g ∈ s.log) :
    m.ty = ty ∧ ∃ d a b, l1 = a ++ .processing t d m (some g) :: b ∧ Ev.processed t d ∉ b := by
  have hcall := dispatch_rules acts s h _ _ _ hl
  obtain ⟨hent, hd⟩ := hcall
  refine ⟨?_, hd⟩
  obtain ⟨a, b, hab⟩ := List.append_of_mem hc
  have hr := rules acts s h _ _ _ hab
  simp only [EvOk] at hr
  have hb := (full acts s h).base
  have hent' : Ev.entry ty g ∈ s.log := by
    rw [hab]
    refine List.mem_append_left _ ?_
    exact entry_of_entryOf hr
  exact hb.mapi.uniq _ _ _ (by rw [hl]; simp [hent]) hent'

/-- C20, partial: `post` returns true only if the processor was not stopped when it was called
and, at some moment of the call, a handler was connected for exactly the type of the message,
or one had been disconnected during a dispatch of that type (see `post_true_no_handler`: that
exception is what is missing); it returns false only if the processor is stopped or no handler
is connected for the type. -/
theorem post_result_partial (acts : List Act) (s : State) (h : run init acts = some s) (l l' : List Ev) (t : Tid) (m : Msg) (b : Bool)
    (hl : s.log = l ++ .result t (.msg m) b :: l') :
    ∃ x y, l = x ++ .asked t (.msg m) :: y ∧
      if b then closedOf x = false ∧ ∃ y1 y2, y = y1 ++ y2 ∧ HandlerSeen m.ty (x ++ .asked t (.msg m) :: y1)
      else closedOf l = true ∨ handlersOf m.ty l = [] := by
  obtain ⟨x, y, hxy, hres⟩ := rules acts s h _ _ _ hl
  refine ⟨x, y, hxy, ?_⟩
  cases b with
  | true =>
    rw [if_pos rfl] at hres ⊢
    exact ⟨hres.1, hres.2.2 m rfl⟩
  | false =>
    rw [if_neg (by simp)] at hres ⊢
    rcases hres.2 with hc | ⟨m', hm', hh⟩
    · exact Or.inl hc
    · cases hm'; exact Or.inr hh

/-! ### C60: no deadlock -/

/-- Thread `t`'s next step needs a lock that thread `u` holds: the map's mutex, or the mutex of
the signal of a message type (recursive, so one's own emission is no obstacle). -/
def WaitsFor (s : State) (t u : Tid) : Prop :=
  match s.stk t with
  | .post1 _ :: _ | .connReq _ :: _ | .discReq _ :: _ | .lookup _ :: _ => s.mOwner = some u
  | .post2 _ g :: _ | .sigReq g _ :: _ | .willNotify _ _ g :: _ => s.emitter g = some u ∧ u ≠ t
  | .conn ty :: _ | .cleanup (ty :: _) :: _ => ∃ g, s.map.lookup ty = some g ∧ s.emitter g = some u ∧ u ≠ t
  | _ => False

/-- Thread `t` is dispatching a message, its handlers' turn has come. -/
def Dispatching (s : State) (t : Tid) : Prop := ∃ d m g, Frame.notifying d m g ∈ s.stk t

theorem waits_kind {s : State} {t u : Tid} (hb : Base s) (he : EmI s.stk s.emitter) (h : WaitsFor s t u) :
    u ≠ t ∧ (Dispatching s u ∨ (s.mOwner = some u ∧ holdsM (s.stk t) = false)) := by
  have hem : ∀ g, s.emitter g = some u → Dispatching s u := by
    intro g hg
    obtain ⟨d, m, hm⟩ := notifs_mem (he g u hg)
    exact ⟨d, m, g, hm⟩
  have hno : s.mOwner = some u → holdsM (s.stk t) = false → u ≠ t := by
    intro h1 h2 e
    subst e
    rw [(hb.own u).2 h1] at h2
    cases h2
  simp only [WaitsFor] at h
  repeat' split at h
  all_goals try (cases h; done)
  all_goals (have hst := ‹s.stk t = _›)
  all_goals first
    | exact ⟨h.2, .inl (hem _ h.1)⟩
    | (obtain ⟨g, -, h1, h2⟩ := h; exact ⟨h2, .inl (hem _ h1)⟩)
    | (have h2 : holdsM (s.stk t) = false := by rw [hst]; rfl
       exact ⟨hno h h2, .inr ⟨h, h2⟩⟩)

/-- C60, partial: if the handlers make no call that has to wait (that is what is missing, see
`post_connect_deadlock`), whoever waits for a lock waits for a thread that does not wait, or for
one that waits for such a thread. So nobody waits for himself, directly or in a circle. -/
theorem lock_chains_partial (acts : List Act) (s : State) (h : run init acts = some s)
    (hh : ∀ u v, Dispatching s u → ¬ WaitsFor s u v) (t u : Tid) (htu : WaitsFor s t u) :
    u ≠ t ∧ ∀ v, WaitsFor s u v → v ≠ u ∧ v ≠ t ∧ ∀ w, ¬ WaitsFor s v w := by
  have hb := (full acts s h).base
  have he := EmI_run acts s h
  obtain ⟨h1, h2⟩ := waits_kind hb he htu
  refine ⟨h1, ?_⟩
  intro v huv
  obtain ⟨h3, h4⟩ := waits_kind hb he huv
  have hv : ∀ w, ¬ WaitsFor s v w := by
    rcases h4 with h4 | ⟨h4, h5⟩
    · exact fun w => hh v w h4
    · rcases h2 with h2 | ⟨h2, -⟩
      · exact absurd huv (hh u v h2)
      · rw [(hb.own u).2 h2] at h5; cases h5
  exact ⟨h3, fun e => by subst e; exact hv u htu, hv⟩

/-- A thread that waits for a lock makes no step. -/
theorem waiting_stands {s s' : State} {a : Act} {u : Tid} (hn : u ≠ a.tid) (hm : holdsM (s.stk a.tid) = true → s.mOwner = some a.tid)
    (h : WaitsFor s a.tid u) (hs : step s a = some s') : False := by
  replace hs := (step_body hs).2
  simp only [WaitsFor] at h
  repeat' split at h
  all_goals try (cases h; done)
  all_goals (have hst := ‹s.stk _ = _›)
  all_goals (cases a <;> simp only [Act.tid] at hst h hn <;>
    simp [body, hst, h, canCall, Frame.isUser, kFree, hn] at hs)
  all_goals (obtain ⟨g, h1, h2, h3⟩ := h; simp [h1, h2, hn] at hs)

/-- The map changes only under its lock. -/
theorem map_keeps {s s' : State} {a : Act} {t : Tid} (ho : ∀ t, holdsM (s.stk t) = true ↔ s.mOwner = some t) (hs : step s a = some s')
    (hg : s.mOwner = some t) (hu : a.tid ≠ t) : s'.map = s.map := by
  have hn : ∀ u, u ≠ t → holdsM (s.stk u) = false := by
    intro u hne
    cases hh : holdsM (s.stk u) with
    | false => rfl
    | true => have := (ho u).1 hh; rw [hg] at this; cases this; exact absurd rfl hne
  have hm := hn _ hu
  clear hn
  replace hs := (step_body hs).2
  peel
  all_goals simp only [Act.tid, release_map] at hu hm ⊢
  all_goals (try have hst := ‹s.stk _ = _›)
  all_goals (try rw [hst] at hm)
  all_goals (try (simp [holdsM] at hm; done))
  all_goals simp_all

theorem waits_keeps {s s' : State} {a : Act} {t u : Tid} (hf : Full s) (h : WaitsFor s t u) (hs : step s a = some s')
    (ht : a.tid ≠ t) (hu : a.tid ≠ u) : WaitsFor s' t u := by
  have hb := hf.base
  have hdi := hf.di (step_body hs).1
  have hstk : s'.stk t = s.stk t := ((step_other hs).1 t (Ne.symm ht)).1
  have hem : ∀ g, s.emitter g = some u → s'.emitter g = some u := fun g hg => emitter_keeps hdi hs hg hu
  have hmo : s.mOwner = some u → s'.mOwner = some u := fun hg => owner_keeps hb.own hs hg hu
  have hmp : holdsM (s.stk t) = true → s'.map = s.map := fun hh => map_keeps hb.own hs ((hb.own t).1 hh) ht
  simp only [WaitsFor] at h ⊢
  rw [hstk]
  repeat' split at h
  all_goals try (cases h; done)
  all_goals first
    | exact hmo h
    | exact ⟨hem _ h.1, h.2⟩
    | (rw [hmp (by rw [‹s.stk t = _›]; rfl)]; obtain ⟨g, h1, h2, h3⟩ := h; exact ⟨g, h1, hem _ h2, h3⟩)

/-- Two threads that wait for each other do so for ever, whatever the others do. -/
theorem circle_forever (acts : List Act) (s : State) (h : run init acts = some s) (t u : Tid)
    (htu : WaitsFor s t u) (hut : WaitsFor s u t) (acts' : List Act) (s' : State) (h' : run s acts' = some s') :
    s'.stk t = s.stk t ∧ s'.stk u = s.stk u ∧ (∀ a ∈ acts', a.tid ≠ t ∧ a.tid ≠ u) := by
  have hf := full acts s h
  have he := EmI_run acts s h
  clear h
  induction acts' generalizing s with
  | nil => cases h'; simp
  | cons a as ih =>
    simp only [run] at h'
    cases hs : step s a with
    | none => rw [hs] at h'; cases h'
    | some s1 =>
      rw [hs] at h'
      have h1 := (waits_kind hf.base he htu).1
      have hat : a.tid ≠ t := by
        intro e
        subst e
        exact waiting_stands h1 (fun hh => (hf.base.own _).1 hh) htu hs
      have hau : a.tid ≠ u := by
        intro e
        subst e
        exact waiting_stands (Ne.symm h1) (fun hh => (hf.base.own _).1 hh) hut hs
      obtain ⟨k1, k2, k3⟩ := ih s1 (waits_keeps hf htu hs hat hau) (waits_keeps hf hut hs hau hat) h' (full_step hf hs) (EmI_step he hs)
      have e1 := ((step_other hs).1 t (Ne.symm hat)).1
      have e2 := ((step_other hs).1 u (Ne.symm hau)).1
      refine ⟨by rw [k1, e1], by rw [k2, e2], ?_⟩
      intro b hb
      rcases List.mem_cons.1 hb with rfl | hb
      · exact ⟨hat, hau⟩
      · exact k3 b hb

/-! ### Witnesses -/

/-- Thread `t` connects a handler for type `ty`. -/
def connectBy (t : Tid) (ty : Ty) : List Act := [.callConnect t ty, .lockConnect t, .doConnect t]
/-- Thread `t` posts a message, undisturbed. -/
def postBy (t : Tid) (m : Msg) : List Act :=
  [.callPost t m, .lockMap t, .postCheck t, .asyncCheck t, .pushCheck t, .insert t]
/-- Thread `t` takes a message and gets to the first handler. -/
def dispatchBy (t : Tid) : List Act := [.take t, .invoke t, .find t, .startNotify t, .iter t]

def circle : List Act := connectBy 1 0 ++ postBy 1 ⟨0, 7⟩ ++ .callRun 2 .forever :: dispatchBy 2 ++ [.callConnect 2 5, .callPost 1 ⟨0, 8⟩, .lockMap 1]

/-- C60 does not hold: thread 2 runs a handler, which calls `connect`; meanwhile thread 1 posts a
message of the same type. Both are stuck for ever: `post` holds the handler map's mutex and
wants the signal's, the handler's thread holds the signal's and wants the map's. -/
theorem post_connect_deadlock : ∃ acts s, run init acts = some s ∧ s.ub = false ∧
    (∃ rest, s.stk 1 = .post2 ⟨0, 8⟩ 0 :: rest) ∧ (∃ rest, s.stk 2 = .connReq 5 :: .handler 0 ⟨0, 7⟩ 0 :: rest) ∧
    ∀ acts' s', run s acts' = some s' → s'.stk 1 = s.stk 1 ∧ s'.stk 2 = s.stk 2 := by
  obtain ⟨s, hs, h0, h1, h2, h3, h4⟩ : ∃ s, run init circle = some s ∧ s.ub = false ∧ s.stk 1 = [.post2 ⟨0, 8⟩ 0] ∧
      s.stk 2 = [.connReq 5, .handler 0 ⟨0, 7⟩ 0, .notifying 0 ⟨0, 7⟩ 0, .loop .forever true] ∧ s.emitter 0 = some 2 ∧ s.mOwner = some 1 :=
    ⟨_, rfl, rfl, rfl, rfl, rfl, rfl⟩
  refine ⟨circle, s, hs, h0, ⟨_, h1⟩, ⟨_, h2⟩, ?_⟩
  intro acts' s' h'
  have := circle_forever _ s hs 1 2 (by simp [WaitsFor, h1, h3]) (by simp [WaitsFor, h2, h4]) acts' s' h'
  exact ⟨this.1, this.2.1⟩

/-- C19 does not hold in full: a call returns true although the work is thrown away, if a stop
comes between its test and its push. -/
theorem true_though_dropped :
    (run init [.callAsync 1 5, .callStop 2, .doClose 2, .doClear 2, .pushCheck 1]).map (fun s => s.log) = some
      [.asked 1 (.exec 5), .closed 2, .stopped 2, .dropped 1 (.exec 5), .result 1 (.exec 5) true] := rfl

/-- C19: work that a thread has already taken starts after the stop has returned. -/
theorem taken_runs_after_stop :
    (run init [.callAsync 1 5, .pushCheck 1, .insert 1, .callRun 2 .forever, .take 2, .callStop 1, .doClose 1, .doClear 1, .invoke 2]).map
      (fun s => s.log) = some
      [.asked 1 (.exec 5), .accepted 1 (.exec 5), .entered 1 (.exec 5), .result 1 (.exec 5) true, .runStart 2, .began 2 (.exec 5),
       .closed 1, .stopped 1, .ran 2 (.exec 5)] := rfl

/-- C19: work whose push had passed its test before the stop gets into the queue after it and
runs when the processor is reused. -/
theorem late_push_runs_after_reuse :
    (run init [.callAsync 1 5, .pushCheck 1, .callStop 2, .doClose 2, .doClear 2, .insert 1, .reuse 2, .callRun 2 .forever, .take 2,
      .invoke 2]).map (fun s => s.log) = some
      [.asked 1 (.exec 5), .accepted 1 (.exec 5), .closed 2, .stopped 2, .entered 1 (.exec 5), .result 1 (.exec 5) true, .reopened 2,
       .runStart 2, .began 2 (.exec 5), .ran 2 (.exec 5)] := rfl

def selfDisconnect : List Act := connectBy 1 0 ++ postBy 1 ⟨0, 7⟩ ++ .callRun 2 .forever :: dispatchBy 2 ++
      [.callSig 2 0 (.disconnect 0), .doSig 2, .ret 2, .iter 2] ++ postBy 1 ⟨0, 8⟩

/-- C20 does not hold in full: a handler disconnects itself while it handles a message; from
then on no handler is connected for the type, and `post` returns true. -/
theorem post_true_no_handler : ∃ s, run init selfDisconnect = some s ∧ s.ub = false ∧
    s.log.drop 20 = [.asked 1 (.msg ⟨0, 8⟩), .accepted 1 (.msg ⟨0, 8⟩), .entered 1 (.msg ⟨0, 8⟩), .result 1 (.msg ⟨0, 8⟩) true] ∧
    handlersOf 0 (s.log.take 20) = [] ∧ handlersOf 0 s.log = [] :=
  ⟨_, rfl, rfl, rfl, rfl, rfl⟩

/-- C20: `disconnect(type)` removes the handlers of the type from the processor, but a dispatch
in progress goes on with them: the second handler is called after it. -/
theorem disconnect_during_dispatch : ∃ s, run init (connectBy 1 0 ++ connectBy 1 0 ++ postBy 1 ⟨0, 7⟩ ++ .callRun 2 .forever :: dispatchBy 2 ++
      [.callDisconnect 2 0, .lockDisconnect 2, .cleanupStep 2, .ret 2, .iter 2]) = some s ∧ s.ub = false ∧
    s.log.drop 16 = [.entryGone (some 2) 0, .sig 2 0 (.returned 0), .sig 2 0 (.called 1 1 ⟨0, 7⟩)] ∧ handlersOf 0 s.log = [] :=
  ⟨_, rfl, rfl, rfl, rfl⟩

/-! ### The hypotheses are met -/

/-- Two threads post, a third one runs the processor: two handlers for type 0, one for type 1;
thread 2's work is queued after the first message; the first handler runs something inline and
posts the second message; then a stop throws that away. -/
def sample : List Act :=
  connectBy 1 0 ++ connectBy 1 0 ++ connectBy 1 1 ++ postBy 1 ⟨0, 7⟩ ++ [.callAsync 2 4, .pushCheck 2, .insert 2] ++
  .callRun 3 .forever :: dispatchBy 3 ++ [.callExecute 3 9, .ret 3] ++ postBy 3 ⟨1, 1⟩ ++ [.ret 3, .iter 3, .ret 3, .iter 3, .take 3, .invoke 3, .ret 3] ++
  [.callStop 2, .doClose 2, .doClear 2, .take 3, .callAsync 1 5]

/-- Nothing undefined happens; this is the order of queued works. -/
example : (run init sample).map (fun s => (s.ub, entries s.log, exits s.log, ranAll s.log, s.q)) = some
    (false, [.msg ⟨0, 7⟩, .exec 4, .msg ⟨1, 1⟩], [.msg ⟨0, 7⟩, .exec 4, .msg ⟨1, 1⟩], [.msg ⟨0, 7⟩, .exec 4], []) := rfl

/-- The log has the shape that `dispatch_exact` speaks about, and both handlers are called. -/
example : ∃ s l1 l2 l3, run init sample = some s ∧
    s.log = l1 ++ .processing 3 0 ⟨0, 7⟩ (some 0) :: l2 ++ .processed 3 0 :: l3 ∧
    handlersOf 0 l1 = [(0, 0), (1, 1)] ∧ dispatchCalls 3 0 0 l2 = [(0, 0, ⟨0, 7⟩), (1, 1, ⟨0, 7⟩)] := by
  obtain ⟨s, hs, hl, h1, h2⟩ : ∃ s, run init sample = some s ∧
      s.log = s.log.take 19 ++ .processing 3 0 ⟨0, 7⟩ (some 0) :: (s.log.drop 20).take 14 ++ .processed 3 0 :: s.log.drop 35 ∧
      handlersOf 0 (s.log.take 19) = [(0, 0), (1, 1)] ∧
      dispatchCalls 3 0 0 ((s.log.drop 20).take 14) = [(0, 0, ⟨0, 7⟩), (1, 1, ⟨0, 7⟩)] := ⟨_, rfl, rfl, rfl, rfl⟩
  exact ⟨s, _, _, _, hs, hl, h1, h2⟩

/-- The second handler of type 0 is connected at the start of the run and, as nobody
disconnects, to the end. -/
example : ∃ s, run init sample = some s ∧ s.log = s.log.take 19 ++ s.log.drop 19 ∧ entryOf 0 (s.log.take 19) = some 0 ∧
    (1, 1) ∈ handlersOf 0 (s.log.take 19) ∧ (∀ e ∈ s.log.drop 19, (∀ t, e ≠ .entryGone (some t) 0) ∧ ∀ t sl, e ≠ .sig t 0 (.removed 1 sl)) ∧
    (1, 1) ∈ handlersOf 0 s.log := by
  obtain ⟨s, hs, h1, h2, h3, h4⟩ : ∃ s, run init sample = some s ∧ entryOf 0 (s.log.take 19) = some 0 ∧
      (1, 1) ∈ handlersOf 0 (s.log.take 19) ∧
      (s.log.drop 19).all (fun e => match e with | .entryGone _ _ => false | .sig _ _ (.removed _ _) => false | _ => true) = true ∧
      (1, 1) ∈ handlersOf 0 s.log := ⟨_, rfl, rfl, by decide, rfl, by decide⟩
  refine ⟨s, hs, (List.take_append_drop 19 s.log).symm, h1, h2, ?_, h4⟩
  intro e he
  have := List.all_eq_true.1 h3 e he
  constructor
  · rintro t rfl; cases this
  · rintro t sl rfl; cases this

/-- It also has a stop followed by work that is refused, and a call that returns true. -/
example : (run init sample).map (fun s => (closedOf s.log, s.log.drop 39)) = some
    (true, [.closed 2, .cleared (.msg ⟨1, 1⟩), .stopped 2, .runEnd 3, .asked 1 (.exec 5), .result 1 (.exec 5) false]) := rfl

/-- A handler calls `post` while another thread is about to lock the map: a thread waits, and
the hypothesis of `lock_chains_partial` is met. -/
example : ∃ s, run init (connectBy 1 0 ++ [.callPost 1 ⟨0, 7⟩, .lockMap 1, .callConnect 2 5]) = some s ∧ WaitsFor s 2 1 ∧
    ∀ u v, Dispatching s u → ¬ WaitsFor s u v := by
  obtain ⟨s, hs, h1, h2, h3, h4⟩ : ∃ s, run init (connectBy 1 0 ++ [.callPost 1 ⟨0, 7⟩, .lockMap 1, .callConnect 2 5]) = some s ∧
      s.stk 1 = [.post2 ⟨0, 7⟩ 0] ∧ s.stk 2 = [.connReq 5] ∧ s.mOwner = some 1 ∧ ∀ g, s.emitter g = none := ⟨_, rfl, rfl, rfl, rfl, fun _ => rfl⟩
  refine ⟨s, hs, by simp [WaitsFor, h2, h3], ?_⟩
  intro u v ⟨d, m, g, hm⟩
  have hd := ((full _ s hs).di (by cases hs; rfl)).noti u d m g hm
  rw [h4 g] at hd
  cases hd.2.2

end Maf.Proc
