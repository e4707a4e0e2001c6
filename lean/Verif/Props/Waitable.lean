import Verif.Lemmas.Waitable
/-
C88: waiting for work given to a processor.
-/
namespace Maf.Wait

/-! ### Specification -/

/-- Reached from the beginning by steps that all satisfy `P`. -/
inductive Reach (P : State → Act → Prop) : State → Prop where
  | init : Reach P State.init
  | step {s s' a} : Reach P s → P s a → step s a = some s' → Reach P s'

/-- Every history. -/
abbrev Reachable : State → Prop := Reach fun _ _ => True

/-- Whether processor `p` is stopped, after what has happened. -/
def stoppedStep (p : Nat) (b : Bool) : Ev → Bool
  | .closed _ p' => if p' = p then true else b
  | .reopened _ p' => if p' = p then false else b
  | _ => b

def stoppedOf (p : Nat) (l : List Ev) : Bool := l.foldl (stoppedStep p) false

/-- Thread `t` is blocked until task `k` is over. -/
def Waits (s : State) (t k : Nat) : Prop := ((s.stk t).head? = some (.get k) ∨ (s.stk t).head? = some (.value k)) ∧ s.sig k = .pending

/-- Thread `u` is in a loop of processor `p`. -/
def Runs (s : State) (u p : Nat) : Prop := ∃ timed set, .loop p timed set ∈ s.stk u

/-- Thread `u` runs user code, or the library's next step is possible. -/
def Goes (s : State) (u : Nat) : Prop := (∃ k, (s.stk u).head? = some (.code k) ∨ (s.stk u).head? = some (.inline k)) ∨ (step s (.lib u)).isSome

/-! ### The invariants hold -/

/-- Signals that are waited for have been returned. -/
def Given (s : State) : Prop := ∀ t k, .get k ∈ s.stk t → s.out k = true

theorem given_move {s s' : State} (h : Given s) (hm : Move s s') : Given s' := by
  have key : ∀ {u : Nat} {l : List Frame} {s' : State}, s'.stk = upd s.stk u l → (∀ k, s.out k = true → s'.out k = true) → (∀ k, .get k ∈ l → .get k ∈ s.stk u ∨ s.out k = true) → Given s' := by
    intro u l s' hs ho hl t k hk
    rw [hs] at hk
    by_cases ht : t = u
    · subst ht
      rw [upd_self] at hk
      rcases hl k hk with h' | h'
      · exact ho k (h t k h')
      · exact ho k h'
    · rw [upd_other ht] at hk; exact ho k (h t k hk)
  have hmono : ∀ k k', s.out k' = true → upd s.out k true k' = true := by
    intro k k' hk
    by_cases he : k' = k
    · subst he; simp
    · rw [upd_other he]; exact hk
  cases hm with
  | note t p es hp he => exact h
  | inline t p below hc hp hi hb => exact key rfl (fun _ => id) fun k hk => by rcases hb with rfl | rfl <;> simp at hk <;> exact .inl hk
  | execute t p below hc hp hi hb => exact key rfl (fun _ => id) fun k hk => by rcases hb with rfl | rfl <;> simp at hk <;> exact .inl hk
  | get t k hc ho =>
    refine key rfl (fun _ => id) fun k' hk => ?_
    simp only [List.mem_cons, Frame.get.injEq] at hk
    rcases hk with rfl | hk
    · exact .inr ho
    · exact .inl hk
  | run t p timed hc => exact key rfl (fun _ => id) fun k hk => by simp at hk; exact .inl hk
  | stop t p hc => exact key rfl (fun _ => id) fun k hk => by simp at hk; exact .inl hk
  | reuse t p => exact h
  | finish t k rest r e hs hr => exact key rfl (fun _ => id) fun k hk => .inl (by rw [hs]; exact List.mem_cons_of_mem _ hk)
  | finishIn t k rest r e hs hr => exact key rfl (hmono k) fun k hk => .inl (by rw [hs]; exact List.mem_cons_of_mem _ hk)
  | leave t p timed set rest hs => exact key rfl (fun _ => id) fun k hk => .inl (by rw [hs]; exact List.mem_cons_of_mem _ hk)
  | drop t k f rest hs hf hc => exact key rfl (hmono k) fun k hk => .inl (by rw [hs]; exact List.mem_cons_of_mem _ hk)
  | pass t k f g rest hs hf hc =>
    refine key rfl (fun _ => id) fun k' hk => .inl ?_
    rw [hs]
    refine List.mem_cons_of_mem _ ?_
    rcases hf with ⟨-, rfl⟩ | ⟨-, rfl⟩ <;> (simp at hk; exact hk)
  | insert t k rest hs => exact key rfl (hmono k) fun k hk => .inl (by rw [hs]; exact List.mem_cons_of_mem _ hk)
  | take t p k timed set rest q' hs hc hq => exact key rfl (fun _ => id) fun k hk => .inl (by rw [hs]; simp at hk; exact List.mem_cons_of_mem _ hk)
  | invoke t k rest hs => exact key rfl (fun _ => id) fun k hk => .inl (by rw [hs]; simp at hk; exact List.mem_cons_of_mem _ hk)
  | got t k rest hs hp => exact key rfl (fun _ => id) fun k hk => .inl (by rw [hs]; exact List.mem_cons_of_mem _ hk)
  | value t k rest hs hp => exact key rfl (fun _ => id) fun k hk => .inl (by rw [hs]; exact List.mem_cons_of_mem _ hk)
  | close t p rest hs => exact key rfl (fun _ => id) fun k hk => .inl (by rw [hs]; simp at hk; exact List.mem_cons_of_mem _ hk)
  | clear t p rest hs => exact key rfl (fun _ => id) fun k hk => .inl (by rw [hs]; exact List.mem_cons_of_mem _ hk)

structure All (s : State) (loc : Nat → Loc) : Prop where
  inv : Inv s loc
  vals : VInv s
  loops : LInv s
  taken : GInv s
  given : Given s

theorem Reach.all {P : State → Act → Prop} {s : State} (h : Reach P s) : ∃ loc, All s loc := by
  induction h with
  | init => exact ⟨_, inv_init, vinv_init, linv_init, ginv_init, fun t k h => by cases h⟩
  | step _ _ hs ih =>
    obtain ⟨loc, ih⟩ := ih
    have hm := step_move hs
    obtain ⟨loc', hi⟩ := inv_move ih.inv hm
    exact ⟨loc', hi, vinv_move ih.vals hm, linv_move ih.inv ih.loops hm, ginv_move ih.inv ih.taken hm, given_move ih.given hm⟩

theorem stopped_snoc {p : Nat} {l : List Ev} {e : Ev} : stoppedOf p (l ++ [e]) = stoppedStep p (stoppedOf p l) e := by simp [stoppedOf]

theorem stopped_more {p : Nat} {l es : List Ev} (h : ∀ e ∈ es, (∀ t p, e ≠ .closed t p) ∧ ∀ t p, e ≠ .reopened t p) : stoppedOf p (l ++ es) = stoppedOf p l := by
  rw [stoppedOf, List.foldl_append]
  show es.foldl (stoppedStep p) (stoppedOf p l) = _
  generalize stoppedOf p l = b
  induction es generalizing b with
  | nil => rfl
  | cons e es ih =>
    rw [List.foldl_cons, ih (fun e' he' => h e' (List.mem_cons_of_mem _ he'))]
    have := h e (List.mem_cons_self ..)
    cases e <;> first | rfl | exact absurd rfl (this.1 _ _) | exact absurd rfl (this.2 _ _)

theorem closed_move {s s' : State} (h : ∀ p, s.closed p = stoppedOf p s.log) (hm : Move s s') (p : Nat) : s'.closed p = stoppedOf p s'.log := by
  cases hm
  case note t p' es hp he =>
    rw [stopped_more, h]
    rcases he with rfl | rfl | rfl <;> simp
  case reuse t p' hc =>
    simp only [stopped_snoc, stoppedStep]
    by_cases hp : p = p'
    · subst hp; simp
    · simp [upd_other hp, h, Ne.symm hp]
  case close t p' rest hs =>
    simp only [stopped_snoc, stoppedStep]
    by_cases hp : p = p'
    · subst hp; simp
    · simp [upd_other hp, h, Ne.symm hp]
  case finish t k rest r e hs hr =>
    rw [stopped_more, h]
    rcases hr with ⟨v, -, rfl⟩ | ⟨-, rfl⟩ <;> simp
  case finishIn t k rest r e hs hr =>
    rw [stopped_more, h]
    rcases hr with ⟨v, -, rfl⟩ | ⟨-, rfl⟩ <;> simp
  all_goals first
    | exact h p
    | (rw [stopped_more, h]; simp; done)

theorem Reach.closed {P : State → Act → Prop} {s : State} (h : Reach P s) : ∀ p, s.closed p = stoppedOf p s.log := by
  induction h with
  | init => intro p; rfl
  | step _ _ hs ih => exact closed_move ih (step_move hs)

/-! ### What is true of each event -/

def Rule (l : List Ev) (e : Ev) : Prop :=
  (∀ t k p, e = .made t k p → stoppedOf p l = false ∧ ∀ t' p', .made t' k p' ∉ l) ∧
  (∀ t p, e = .refused t p → stoppedOf p l = true) ∧
  (∀ t k p, e = .ran t k p → (∃ t', .made t' k p ∈ l) ∧ (∀ t' p', .ran t' k p' ∉ l) ∧ (∀ t' r, .got t' k r ∉ l) ∧ ∀ t' v, .value t' k v ∉ l) ∧
  (∀ t k v, e = .returned t k v → (∃ p, .ran t k p ∈ l) ∧ (∀ t' v', .returned t' k v' ∉ l) ∧ (∀ t', .threw t' k ∉ l) ∧ (∀ t' r, .got t' k r ∉ l) ∧ ∀ t' v, .value t' k v ∉ l) ∧
  (∀ t k, e = .threw t k → (∃ p, .ran t k p ∈ l) ∧ (∀ t' v', .returned t' k v' ∉ l) ∧ (∀ t', .threw t' k ∉ l) ∧ (∀ t' r, .got t' k r ∉ l) ∧ ∀ t' v, .value t' k v ∉ l) ∧
  (∀ t k r, e = .got t k r → (∃ v t', r = .done v ∧ .returned t' k v ∈ l) ∨ (∃ t', r = .threw ∧ .threw t' k ∈ l) ∨ (r = .broken ∧ ∀ t' p, .ran t' k p ∉ l)) ∧
  (∀ t k v, e = .value t k v → (∃ t', .returned t' k v ∈ l) ∨ (v = 0 ∧ ((∃ t', .threw t' k ∈ l) ∨ ∀ t' p, .ran t' k p ∉ l)))

/-- an event of none of these kinds -/
theorem rule_other {l : List Ev} {e : Ev} (h : (∃ t p, e = .noValue t p) ∨ (∃ t p, e = .stopped t p) ∨ (∃ t p, e = .closed t p) ∨ ∃ t p, e = .reopened t p) : Rule l e := by
  rcases h with ⟨_, _, rfl⟩ | ⟨_, _, rfl⟩ | ⟨_, _, rfl⟩ | ⟨_, _, rfl⟩ <;> simp [Rule]

theorem pending_none {s : State} {loc : Nat → Loc} (h : All s loc) {k : Nat} (hp : s.sig k = .pending) :
    (∀ t' r, .got t' k r ∉ s.log) ∧ (∀ t' v, .value t' k v ∉ s.log) ∧ (∀ t' v', .returned t' k v' ∉ s.log) ∧ (∀ t', .threw t' k ∉ s.log) :=
  ⟨fun t' r hg => (by have := h.taken.got hg; rw [hp] at this; exact this.2 this.1.symm), fun t' v hg => (h.taken.value hg).2 hp,
    fun t' v hg => (by have := h.taken.returned hg; rw [hp] at this; cases this), fun t' hg => (by have := h.taken.threw hg; rw [hp] at this; cases this)⟩

theorem broken_never {s : State} {loc : Nat → Loc} (h : All s loc) {k : Nat} (hb : s.sig k = .broken) (t p : Nat) : .ran t k p ∉ s.log := by
  intro hr
  rcases (h.inv.ran _ _ _ hr).2 with ⟨c, hl⟩ | ⟨-, hn⟩
  · have := (h.inv.sig k).2 (by rw [hl]; simp)
    rw [this] at hb; cases hb
  · exact hn hb

theorem made_rule {s : State} {loc : Nat → Loc} (h : All s loc) (hc : ∀ p, s.closed p = stoppedOf p s.log) {t p : Nat} (hp : s.closed p = false) : Rule s.log (.made t s.next p) := by
  refine ⟨?_, by simp, by simp, by simp, by simp, by simp, by simp⟩
  rintro t' k p' he
  cases he
  exact ⟨by rw [← hc]; exact hp, fun t' p' hm => by have := (h.inv.made _ _ _ hm).1; omega⟩

theorem end_rule {s : State} {loc : Nat → Loc} (h : All s loc) {t k : Nat} {f : Frame} {rest : List Frame} {c : Bool} (hs : s.stk t = f :: rest) (hf : f.tag = some (k, true, c)) {r : Sig} {e : Ev}
    (hr : (∃ v, r = .done v ∧ e = .returned t k v) ∨ (r = .threw ∧ e = .threw t k)) : Rule s.log e := by
  have hp := h.inv.pending hs hf
  obtain ⟨n1, n2, n3, n4⟩ := pending_none h hp
  have hran := h.inv.run t k c (h.inv.task hs hf).1
  rcases hr with ⟨v, -, rfl⟩ | ⟨-, rfl⟩
  · refine ⟨by simp, by simp, by simp, ?_, by simp, by simp, by simp⟩
    intro t' k' v' he
    cases he
    exact ⟨⟨_, hran⟩, n3, n4, n1, n2⟩
  · refine ⟨by simp, by simp, by simp, by simp, ?_, by simp, by simp⟩
    intro t' k' he
    cases he
    exact ⟨⟨_, hran⟩, n3, n4, n1, n2⟩

theorem rule_reach {P : State → Act → Prop} {s : State} (h : Reach P s) : Hist Rule s.log := by
  induction h with
  | init => exact Hist.nil
  | @step s s' a hr _ hs ih =>
    obtain ⟨loc, ha⟩ := hr.all
    have hcl := hr.closed
    have refuse : ∀ t p, s.closed p = true → Rule s.log (.refused t p) := by
      intro t p hp
      refine ⟨by simp, ?_, by simp, by simp, by simp, by simp, by simp⟩
      intro t' p' he
      cases he
      rw [← hcl]; exact hp
    have other : ∀ {l e}, ((∃ t p, e = Ev.noValue t p) ∨ (∃ t p, e = Ev.stopped t p) ∨ (∃ t p, e = Ev.closed t p) ∨ ∃ t p, e = Ev.reopened t p) → Rule l e := rule_other
    have hm := step_move hs
    cases hm with
    | note t p es hp he =>
      rcases he with rfl | rfl | rfl
      · exact ih.one (refuse t p hp)
      · exact ih.two (refuse t p hp) (other (.inl ⟨_, _, rfl⟩))
      · exact ih.one (other (.inr (.inl ⟨_, _, rfl⟩)))
    | inline t p below hc hp hi hb =>
      refine ih.two (made_rule ha hcl hp) ⟨by simp, by simp, ?_, by simp, by simp, by simp, by simp⟩
      intro t' k p' he
      cases he
      have hpd : s.sig s.next = .pending := (ha.inv.sig _).2 (by rw [(ha.inv.fresh _).2 (Nat.le_refl _)]; simp)
      obtain ⟨n1, n2, -, -⟩ := pending_none ha hpd
      refine ⟨⟨t, by simp⟩, fun t' p' hm => ?_, fun t' r hm => ?_, fun t' v hm => ?_⟩
      · simp only [List.mem_append, List.mem_singleton, reduceCtorEq, or_false] at hm
        have := (ha.inv.ran _ _ _ hm).2
        rw [(ha.inv.fresh s.next).2 (Nat.le_refl _)] at this
        simp at this
      · simp only [List.mem_append, List.mem_singleton, reduceCtorEq, or_false] at hm
        exact n1 _ _ hm
      · simp only [List.mem_append, List.mem_singleton, reduceCtorEq, or_false] at hm
        exact n2 _ _ hm
    | execute t p below hc hp hi hb => exact ih.one (made_rule ha hcl hp)
    | get t k => exact ih
    | run t p timed => exact ih
    | stop t p => exact ih
    | reuse t p => exact ih.one (other (.inr (.inr (.inr ⟨_, _, rfl⟩))))
    | finish t k rest r e hst hr => exact ih.one (end_rule ha hst rfl hr)
    | finishIn t k rest r e hst hr => exact ih.one (end_rule ha hst rfl hr)
    | leave t p timed set rest hst => exact ih
    | drop t k f rest hst hf hc => exact ih
    | pass t k f g rest hst hf hc => exact ih
    | insert t k rest hst => exact ih
    | take t p k timed set rest q' hst hc hq => exact ih
    | invoke t k rest hst =>
      refine ih.one ⟨by simp, by simp, ?_, by simp, by simp, by simp, by simp⟩
      intro t' k' p' he
      cases he
      have hl := (ha.inv.task hst (k := k) rfl).1
      have hpd := ha.inv.pending hst (k := k) rfl
      obtain ⟨n1, n2, -, -⟩ := pending_none ha hpd
      have hlt : k < s.next := Nat.lt_of_not_le fun hle => by rw [(ha.inv.fresh k).2 hle] at hl; cases hl
      refine ⟨ha.inv.known k hlt, fun t' p' hm => ?_, n1, n2⟩
      have := (ha.inv.ran _ _ _ hm).2
      rw [hl] at this
      simp at this
    | got t k rest hst hp =>
      refine ih.one ⟨by simp, by simp, by simp, by simp, by simp, ?_, by simp⟩
      intro t' k' r he
      cases he
      cases hr : s.sig k with
      | pending => exact absurd hr hp
      | done v => obtain ⟨t', ht'⟩ := ha.inv.done k v hr; exact .inl ⟨v, t', rfl, ht'⟩
      | threw => obtain ⟨t', ht'⟩ := ha.inv.threw k hr; exact .inr (.inl ⟨t', rfl, ht'⟩)
      | broken => exact .inr (.inr ⟨rfl, fun t' p => broken_never ha hr t' p⟩)
    | value t k rest hst hp =>
      refine ih.one ⟨by simp, by simp, by simp, by simp, by simp, by simp, ?_⟩
      intro t' k' v he
      cases he
      cases hr : s.sig k with
      | pending => exact absurd hr hp
      | done v => obtain ⟨t', ht'⟩ := ha.inv.done k v hr; exact .inl ⟨t', ht'⟩
      | threw => obtain ⟨t', ht'⟩ := ha.inv.threw k hr; exact .inr ⟨rfl, .inl ⟨t', ht'⟩⟩
      | broken => exact .inr ⟨rfl, .inr fun t' p => broken_never ha hr t' p⟩
    | close t p rest hst => exact ih.one (other (.inr (.inr (.inl ⟨_, _, rfl⟩))))
    | clear t p rest hst => exact ih.one (other (.inr (.inl ⟨_, _, rfl⟩)))

/-! ### What happens to a function given to `waitableExecute` -/

/-- It is run once at most, after it was given, for the processor it was given to. -/
theorem runs_once {s : State} (h : Reachable s) {l m : List Ev} {t k p : Nat} (hl : s.log = l ++ .ran t k p :: m) : (∃ t', .made t' k p ∈ l) ∧ ∀ t' p', .ran t' k p' ∉ l := by
  obtain ⟨h1, h2, -, -⟩ := ((rule_reach h).all l _ m hl).2.2.1 t k p rfl
  exact ⟨h1, h2⟩

/-- Nothing runs any more once its outcome was taken: what the function refers to may go away. -/
theorem quiet_after_get {s : State} (h : Reachable s) {l m : List Ev} {e : Ev} {k : Nat} (hl : s.log = l ++ e :: m) (he : (∃ t r, e = .got t k r) ∨ ∃ t v, e = .value t k v) :
    (∀ t p, .ran t k p ∉ m) ∧ (∀ t v, .returned t k v ∉ m) ∧ ∀ t, .threw t k ∉ m := by
  have key : ∀ e' ∈ m, (∃ l', Rule l' e' ∧ e ∈ l') := by
    intro e' hm
    obtain ⟨a, b, rfl⟩ := List.append_of_mem hm
    exact ⟨l ++ e :: a, (rule_reach h).all _ _ b (by rw [hl]; simp), by simp⟩
  refine ⟨fun t p hm => ?_, fun t v hm => ?_, fun t hm => ?_⟩
  · obtain ⟨l', hr, hin⟩ := key _ hm
    obtain ⟨-, -, n1, n2⟩ := hr.2.2.1 _ _ _ rfl
    rcases he with ⟨t', r, rfl⟩ | ⟨t', v, rfl⟩
    · exact n1 _ _ hin
    · exact n2 _ _ hin
  · obtain ⟨l', hr, hin⟩ := key _ hm
    obtain ⟨-, -, -, n1, n2⟩ := hr.2.2.2.1 _ _ _ rfl
    rcases he with ⟨t', r, rfl⟩ | ⟨t', v, rfl⟩
    · exact n1 _ _ hin
    · exact n2 _ _ hin
  · obtain ⟨l', hr, hin⟩ := key _ hm
    obtain ⟨-, -, -, n1, n2⟩ := hr.2.2.2.2.1 _ _ rfl
    rcases he with ⟨t', r, rfl⟩ | ⟨t', v, rfl⟩
    · exact n1 _ _ hin
    · exact n2 _ _ hin

/-- `get` gives what the function has returned or thrown; it reports a broken promise only for functions that are never run. -/
theorem get_true {s : State} (h : Reachable s) {l m : List Ev} {t k : Nat} {r : Sig} (hl : s.log = l ++ .got t k r :: m) :
    (∃ v t', r = .done v ∧ .returned t' k v ∈ l) ∨ (∃ t', r = .threw ∧ .threw t' k ∈ l) ∨ (r = .broken ∧ ∀ t' p, .ran t' k p ∉ s.log) := by
  rcases ((rule_reach h).all l _ m hl).2.2.2.2.2.1 t k r rfl with h1 | h1 | ⟨h1, h2⟩
  · exact .inl h1
  · exact .inr (.inl h1)
  · refine .inr (.inr ⟨h1, fun t' p hm => ?_⟩)
    rw [hl] at hm
    rcases List.mem_append.1 hm with hm | hm
    · exact h2 _ _ hm
    · rcases List.mem_cons.1 hm with hm | hm
      · cases hm
      · exact (quiet_after_get h hl (.inl ⟨t, r, rfl⟩)).1 _ _ hm

/-- The full property: the template returns what the function has returned. False (`value_made_up`): it returns the initial value as well if
the function has thrown or is never run; which is what is missing here. -/
theorem value_true_partial {s : State} (h : Reachable s) {l m : List Ev} {t k v : Nat} (hl : s.log = l ++ .value t k v :: m) :
    (∃ t', .returned t' k v ∈ l) ∨ (v = 0 ∧ ((∃ t', .threw t' k ∈ l) ∨ ∀ t' p, .ran t' k p ∉ s.log)) := by
  rcases ((rule_reach h).all l _ m hl).2.2.2.2.2.2 t k v rfl with h1 | ⟨h1, h2 | h2⟩
  · exact .inl h1
  · exact .inr ⟨h1, .inl h2⟩
  · refine .inr ⟨h1, .inr fun t' p hm => ?_⟩
    rw [hl] at hm
    rcases List.mem_append.1 hm with hm | hm
    · exact h2 _ _ hm
    · rcases List.mem_cons.1 hm with hm | hm
      · cases hm
      · exact (quiet_after_get h hl (.inr ⟨t, v, rfl⟩)).1 _ _ hm

/-- A function ends once, on the thread that runs it. -/
theorem ends_once {s : State} (h : Reachable s) {l m : List Ev} {e : Ev} {t k : Nat} (hl : s.log = l ++ e :: m) (he : (∃ v, e = .returned t k v) ∨ e = .threw t k) :
    (∃ p, .ran t k p ∈ l) ∧ (∀ t' v, .returned t' k v ∉ l) ∧ ∀ t', .threw t' k ∉ l := by
  have hr := (rule_reach h).all l _ m hl
  rcases he with ⟨v, rfl⟩ | rfl
  · obtain ⟨h1, h2, h3, -⟩ := hr.2.2.2.1 _ _ _ rfl
    exact ⟨h1, h2, h3⟩
  · obtain ⟨h1, h2, h3, -⟩ := hr.2.2.2.2.1 _ _ rfl
    exact ⟨h1, h2, h3⟩

/-- The signal is invalid if and only if the processor was stopped when it was called. -/
theorem refused_iff {s s' : State} (h : Reachable s) {t p : Nat} (hs : step s (.callExecute t p) = some s') :
    (stoppedOf p s.log = true → s'.log = s.log ++ [.refused t p]) ∧ (stoppedOf p s.log = false → ∃ k es, s'.log = s.log ++ .made t k p :: es ∧ ∀ t' p', .made t' k p' ∉ s.log) := by
  obtain ⟨loc, ha⟩ := h.all
  rw [← h.closed p]
  simp only [step] at hs
  split at hs
  · cases hs
    unfold callExecute
    refine ⟨fun hc => by rw [if_pos hc], fun hc => ?_⟩
    rw [if_neg (by simp [hc])]
    have : ∀ t' p', .made t' s.next p' ∉ s.log := fun t' p' hm => by have := (ha.inv.made _ _ _ hm).1; omega
    unfold execute
    split
    · exact ⟨s.next, _, rfl, this⟩
    · exact ⟨s.next, [], rfl, this⟩
  · cases hs

/-- Called on a thread that runs the processor first of all (`this_processor`), the function is run at once, before `waitableExecute` returns. -/
theorem inline_at_once {s s' : State} {t p : Nat} (hi : s.inst t = some p) (hc : s.closed p = false) (hs : step s (.callExecute t p) = some s') :
    s'.stk t = .inline s.next :: s.stk t ∧ s'.log = s.log ++ [.made t s.next p, .ran t s.next p] := by
  simp only [step] at hs
  split at hs
  · cases hs
    simp [callExecute, hc, execute, hi]
  · cases hs

/-! ### Who waits for what -/

theorem above_mem {pr : Nat → Nat} : ∀ {l : List Frame} {f : Frame} {k : Nat}, Above pr l → f ∈ l → f.runs = some k → ∃ a b, .loop (pr k) a b ∈ l
  | _ :: rest, _, k, h, hf, hk => by
    rcases List.mem_cons.1 hf with rfl | hf
    · obtain ⟨a, b, hm⟩ := h.1 k hk
      exact ⟨a, b, List.mem_cons_of_mem _ hm⟩
    · obtain ⟨a, b, hm⟩ := above_mem h.2 hf hk
      exact ⟨a, b, List.mem_cons_of_mem _ hm⟩

/-- A thread that waits, waits for a function that is in the queue of its processor, or that is being run by a thread in a loop of it. -/
theorem waits_for {s : State} (h : Reachable s) {t k : Nat} (hw : Waits s t k) :
    k ∈ s.q (s.proc k) ∨ ∃ u, Runs s u (s.proc k) ∧ (.taken k ∈ s.stk u ∨ .code k ∈ s.stk u) := by
  obtain ⟨loc, ha⟩ := h.all
  obtain ⟨hh, hp⟩ := hw
  have ho : s.out k = true := by
    rcases hh with hh | hh
    · exact ha.given t k (List.mem_of_mem_head? hh)
    · exact (ha.vals t).2 k hh
  obtain ⟨h1, h2⟩ := (ha.inv.out k).1 ho
  have h3 := (ha.inv.sig k).1 hp
  cases hl : loc k with
  | fresh => exact absurd hl h1
  | over => exact absurd hl h3
  | queued p =>
    have hm := (ha.inv.place.que p k).2 hl
    rw [ha.inv.qp p k hm]
    exact .inl hm
  | «at» u b c =>
    cases c with
    | true => exact absurd hl (h2 u b)
    | false =>
      have hm := (ha.inv.place.stk u k b false).2 hl
      obtain ⟨f, hf, htag⟩ := List.mem_filterMap.1 hm
      have hk : f = .taken k ∨ f = .code k := by
        cases f <;> simp [Frame.tag] at htag
        · exact .inl (by rw [htag.1])
        · exact .inr (by rw [htag.1])
      refine .inr ⟨u, ?_, ?_⟩
      · refine above_mem (ha.loops.above u) hf ?_
        rcases hk with rfl | rfl <;> rfl
      · rcases hk with rfl | rfl
        · exact .inl hf
        · exact .inr hf

/-- As soon as it is ready, the waiting thread goes on. -/
theorem ready_goes {s : State} {t k : Nat} (hh : (s.stk t).head? = some (.get k) ∨ (s.stk t).head? = some (.value k)) (hr : s.sig k ≠ .pending) : Goes s t := by
  refine .inr ?_
  rcases hh with hh | hh
  · obtain ⟨rest, hs⟩ := List.head?_eq_some_iff.1 hh
    simp [step, lib, hs, hr]
  · obtain ⟨rest, hs⟩ := List.head?_eq_some_iff.1 hh
    simp [step, lib, hs, hr]

/-- Nobody starts a loop inside a function or a loop. -/
def Flat (s : State) : Prop := ∀ u p timed set a b, s.stk u = a ++ .loop p timed set :: b → b = []

/-- Whoever runs a processor waits only for processors of lower rank. -/
def Ranked (rank : Nat → Nat) (s : State) : Prop :=
  ∀ u p k, Runs s u p → (s.stk u).head? = some (.get k) ∨ (s.stk u).head? = some (.value k) → rank (s.proc k) < rank p

/-- Every processor that has something to do is open and run by some thread. -/
def Served (s : State) : Prop := ∀ p, s.q p ≠ [] → s.closed p = false ∧ ∃ u, Runs s u p

/-- No deadlock: if processors are ranked and run by threads, then as long as somebody waits, some thread goes on. -/
theorem no_deadlock {s : State} (h : Reachable s) (rank : Nat → Nat) (hf : Flat s) (hr : Ranked rank s) (hv : Served s) {t k : Nat} (hw : Waits s t k) : ∃ u, Goes s u := by
  generalize hn : rank (s.proc k) = n
  induction n using Nat.strongRecOn generalizing t k with
  | ind n ih =>
    -- a thread in a loop of the processor that is doing something
    have thread : ∀ u, Runs s u (s.proc k) → (s.q (s.proc k) ≠ [] ∧ s.closed (s.proc k) = false ∨ ∃ f ∈ s.stk u, ∀ p a b, f ≠ .loop p a b) → ∃ u, Goes s u := by
      intro u hu hb
      obtain ⟨timed, set, hl⟩ := hu
      cases hst : s.stk u with
      | nil => rw [hst] at hl; cases hl
      | cons f rest =>
        cases f with
        | loop p a b =>
          have he := hf u p a b [] rest (by simpa using hst)
          subst he
          rw [hst] at hl
          simp only [List.mem_singleton, Frame.loop.injEq] at hl
          rcases hb with ⟨hq, hc⟩ | ⟨f, hm, hnl⟩
          · refine ⟨u, .inr ?_⟩
            cases hq' : s.q (s.proc k) with
            | nil => exact absurd hq' hq
            | cons x xs =>
              rw [hl.1] at hq' hc
              simp [step, lib, hst, hq', hc]
          · rw [hst] at hm
            simp only [List.mem_singleton] at hm
            exact absurd hm (hnl p a b)
        | get k2 =>
          by_cases hp : s.sig k2 = .pending
          · have hlt := hr u (s.proc k) k2 ⟨timed, set, hl⟩ (.inl (by rw [hst]; rfl))
            exact ih _ (by rw [← hn]; exact hlt) ⟨.inl (by rw [hst]; rfl), hp⟩ rfl
          · exact ⟨u, ready_goes (.inl (by rw [hst]; rfl)) hp⟩
        | value k2 =>
          by_cases hp : s.sig k2 = .pending
          · have hlt := hr u (s.proc k) k2 ⟨timed, set, hl⟩ (.inr (by rw [hst]; rfl))
            exact ih _ (by rw [← hn]; exact hlt) ⟨.inr (by rw [hst]; rfl), hp⟩ rfl
          · exact ⟨u, ready_goes (.inr (by rw [hst]; rfl)) hp⟩
        | taken k2 => exact ⟨u, .inr (by simp [step, lib, hst])⟩
        | code k2 => exact ⟨u, .inl ⟨k2, .inl (by rw [hst]; rfl)⟩⟩
        | inline k2 => exact ⟨u, .inl ⟨k2, .inr (by rw [hst]; rfl)⟩⟩
        | check k2 => exact ⟨u, .inr (by simp only [step, lib, hst]; split <;> rfl)⟩
        | push1 k2 => exact ⟨u, .inr (by simp only [step, lib, hst]; split <;> rfl)⟩
        | push2 k2 => exact ⟨u, .inr (by simp [step, lib, hst])⟩
        | stop1 p => exact ⟨u, .inr (by simp [step, lib, hst])⟩
        | stop2 p => exact ⟨u, .inr (by simp [step, lib, hst])⟩
    rcases waits_for h hw with hq | ⟨u, hu, hm⟩
    · have hne : s.q (s.proc k) ≠ [] := List.ne_nil_of_mem hq
      obtain ⟨hc, u, hu⟩ := hv _ hne
      exact thread u hu (.inl ⟨hne, hc⟩)
    · refine thread u hu (.inr ?_)
      rcases hm with hm | hm
      · exact ⟨_, hm, by simp⟩
      · exact ⟨_, hm, by simp⟩

/-! ### Stopping releases who waits -/

/-- No function is half-way into the queue when it is closed. -/
def Calm (s : State) (a : Act) : Prop := ∀ t p rest, a = .lib t → s.stk t = .stop1 p :: rest → ∀ u k, .push2 k ∈ s.stk u → s.proc k ≠ p

/-- What is in the queue of a stopped processor will be cleared. -/
def SInv (s : State) : Prop := ∀ p, s.closed p = true → (∀ u k, .push2 k ∈ s.stk u → s.proc k ≠ p) ∧ (s.q p = [] ∨ ∃ u, .stop2 p ∈ s.stk u)

theorem closes {s s' : State} {a : Act} (hs : step s a = some s') {p : Nat} (h0 : s.closed p = false) (h1 : s'.closed p = true) : ∃ t rest, a = .lib t ∧ s.stk t = .stop1 p :: rest := by
  have hno : s'.closed = s.closed → False := fun h => by rw [h, h0] at h1; cases h1
  cases a with
  | callExecute t p' =>
    exfalso
    simp only [step] at hs
    split at hs
    · cases hs
      refine hno ?_
      unfold callExecute
      split
      · rfl
      · unfold execute; split <;> rfl
    · cases hs
  | callValue t p' =>
    exfalso
    simp only [step] at hs
    split at hs
    · cases hs
      refine hno ?_
      unfold callValue
      split
      · rfl
      · unfold execute; split <;> rfl
    · cases hs
  | callGet t k =>
    exfalso
    simp only [step] at hs
    split at hs
    · cases hs; exact hno rfl
    · cases hs
  | callRun t p' timed =>
    exfalso
    simp only [step] at hs
    split at hs
    · cases hs; exact hno rfl
    · cases hs
  | callStop t p' =>
    exfalso
    simp only [step] at hs
    split at hs
    · split at hs
      · cases hs; exact hno rfl
      · cases hs; exact hno rfl
    · cases hs
  | reuse t p' =>
    exfalso
    simp only [step] at hs
    split at hs
    · cases hs
      by_cases hp : p = p'
      · subst hp; simp at h1
      · simp only [upd_other hp] at h1; rw [h0] at h1; cases h1
    · cases hs
  | ret t v =>
    exfalso
    simp only [step, finish] at hs
    split at hs
    · cases hs; exact hno rfl
    · cases hs; exact hno rfl
    · cases hs
  | throw t =>
    exfalso
    simp only [step, finish] at hs
    split at hs
    · cases hs; exact hno rfl
    · cases hs; exact hno rfl
    · cases hs
  | timeout t =>
    exfalso
    simp only [step] at hs
    split at hs
    · cases hs; exact hno rfl
    · cases hs
  | lib t =>
    simp only [step, lib] at hs
    split at hs
    case h_8 p' rest heq =>
      cases hs
      by_cases hp : p = p'
      · subst hp; exact ⟨t, rest, rfl, heq⟩
      · simp only [upd_other hp] at h1; rw [h0] at h1; cases h1
    all_goals exfalso
    all_goals first
      | (cases hs; exact hno rfl)
      | cases hs
      | (split at hs
         · first
           | (cases hs; exact hno rfl)
           | cases hs
         · first
           | (cases hs; exact hno rfl)
           | cases hs
           | (split at hs
              · cases hs
              · cases hs; exact hno rfl))

theorem sinv_move {s s' : State} {loc : Nat → Loc} (hi : Inv s loc) (h : SInv s) (hm : Move s s') (hc : ∀ p, s.closed p = false → s'.closed p = true → ∀ u k, .push2 k ∈ s.stk u → s.proc k ≠ p) : SInv s' := by
  have hlt : ∀ {u k}, .push2 k ∈ s.stk u → k ≠ s.next := by
    rintro u k hk rfl
    have := (hi.place.stk u s.next false true).1 (List.mem_filterMap.2 ⟨_, hk, rfl⟩)
    rw [(hi.fresh _).2 (Nat.le_refl _)] at this; cases this
  -- one stack changes: frames of a push or of a stop are not added, no stop is ended
  have key : ∀ {u : Nat} {l : List Frame} {s' : State}, s'.stk = upd s.stk u l → s'.closed = s.closed → (∀ k, k ≠ s.next → s'.proc k = s.proc k) → (∀ p, s.q p = [] → s.closed p = true → s'.q p = []) →
      (∀ k, .push2 k ∈ l → .push2 k ∈ s.stk u ∨ (s.closed (s.proc k) = false ∧ k ≠ s.next)) → (∀ p, .stop2 p ∈ s.stk u → .stop2 p ∈ l ∨ s'.q p = []) → SInv s' := by
    intro u l s' hs hcl hpr hq hl hst p hp
    rw [hcl] at hp
    obtain ⟨h1, h2⟩ := h p hp
    refine ⟨fun u' k hk => ?_, ?_⟩
    · have : .push2 k ∈ s.stk u' ∨ (s.closed (s.proc k) = false ∧ k ≠ s.next) := by
        rw [hs] at hk
        by_cases hu : u' = u
        · subst hu; rw [upd_self] at hk; exact hl k hk
        · rw [upd_other hu] at hk; exact .inl hk
      rcases this with h' | ⟨h', hn⟩
      · rw [hpr k (hlt h')]; exact h1 u' k h'
      · rw [hpr k hn]; rintro rfl; rw [hp] at h'; cases h'
    · rcases h2 with h2 | ⟨u', h2⟩
      · exact .inl (hq p h2 hp)
      · by_cases hu : u' = u
        · subst hu
          rcases hst p h2 with h3 | h3
          · exact .inr ⟨u', by rw [hs, upd_self]; exact h3⟩
          · exact .inl h3
        · exact .inr ⟨u', by rw [hs, upd_other hu]; exact h2⟩
  have ho : ∀ {p}, ∀ k, k ≠ s.next → upd s.proc s.next p k = s.proc k := fun k hk => upd_other hk
  cases hm with
  | note t p es hp he => exact h
  | inline t p below hcc hp hin hb =>
    refine key rfl rfl ho (fun _ h _ => h) (fun k hk => .inl ?_) fun p' hk => .inl ?_
    · rcases hb with rfl | rfl <;> simpa using hk
    · rcases hb with rfl | rfl <;> simpa using hk
  | execute t p below hcc hp hin hb =>
    refine key rfl rfl ho (fun _ h _ => h) (fun k hk => .inl ?_) fun p' hk => .inl ?_
    · rcases hb with rfl | rfl <;> simpa using hk
    · rcases hb with rfl | rfl <;> simpa using hk
  | get t k hcc hout => exact key rfl rfl (fun _ _ => rfl) (fun _ h _ => h) (fun k hk => .inl (by simpa using hk)) fun p hk => .inl (by simpa using hk)
  | run t p timed hcc => exact key rfl rfl (fun _ _ => rfl) (fun _ h _ => h) (fun k hk => .inl (by simpa using hk)) fun p hk => .inl (by simpa using hk)
  | stop t p hcc => exact key rfl rfl (fun _ _ => rfl) (fun _ h _ => h) (fun k hk => .inl (by simpa using hk)) fun p hk => .inl (by simpa using hk)
  | reuse t p =>
    intro p' hp'
    by_cases he : p' = p
    · subst he; simp at hp'
    · simp only [upd_other he] at hp'; exact h p' hp'
  | finish t k rest r e hs hr => exact key rfl rfl (fun _ _ => rfl) (fun _ h _ => h) (fun k hk => .inl (by rw [hs]; simpa using hk)) fun p hk => .inl (by rw [hs] at hk; simpa using hk)
  | finishIn t k rest r e hs hr => exact key rfl rfl (fun _ _ => rfl) (fun _ h _ => h) (fun k hk => .inl (by rw [hs]; simpa using hk)) fun p hk => .inl (by rw [hs] at hk; simpa using hk)
  | leave t p timed set rest hs => exact key rfl rfl (fun _ _ => rfl) (fun _ h _ => h) (fun k hk => .inl (by rw [hs]; simpa using hk)) fun p hk => .inl (by rw [hs] at hk; simpa using hk)
  | drop t k f rest hs hf hcl =>
    exact key rfl rfl (fun _ _ => rfl) (fun _ h _ => h) (fun k hk => .inl (by rw [hs]; exact List.mem_cons_of_mem _ hk)) fun p hk => .inl (by rw [hs] at hk; rcases hf with rfl | rfl <;> simpa using hk)
  | pass t k f g rest hs hf hcl =>
    refine key rfl rfl (fun _ _ => rfl) (fun _ h _ => h) (fun k' hk => ?_) fun p hk => .inl ?_
    · rcases List.mem_cons.1 hk with hk | hk
      · rcases hf with ⟨-, rfl⟩ | ⟨rfl, rfl⟩
        · cases hk
        · cases hk
          refine .inr ⟨hcl, ?_⟩
          rintro rfl
          have := (hi.task hs (k := s.next) rfl).1
          rw [(hi.fresh _).2 (Nat.le_refl _)] at this; cases this
      · exact .inl (by rw [hs]; exact List.mem_cons_of_mem _ hk)
    · rw [hs] at hk
      rcases hf with ⟨rfl, rfl⟩ | ⟨rfl, rfl⟩ <;> simpa using hk
  | insert t k rest hs =>
    refine key rfl rfl (fun _ _ => rfl) (fun p hq hp => ?_) (fun k hk => .inl (by rw [hs]; exact List.mem_cons_of_mem _ hk)) fun p hk => .inl (by rw [hs] at hk; simpa using hk)
    have := (h p hp).1 t k (by rw [hs]; exact List.mem_cons_self ..)
    simp only [upd_other (Ne.symm this)]; exact hq
  | take t p k timed set rest q' hs hcl hq =>
    refine key rfl rfl (fun _ _ => rfl) (fun p' hq' hp => ?_) (fun k hk => .inl (by rw [hs]; simpa using hk)) fun p hk => .inl (by rw [hs] at hk; simpa using hk)
    have : p' ≠ p := by rintro rfl; rw [hq] at hq'; cases hq'
    simp only [upd_other this]; exact hq'
  | invoke t k rest hs => exact key rfl rfl (fun _ _ => rfl) (fun _ h _ => h) (fun k hk => .inl (by rw [hs]; simpa using hk)) fun p hk => .inl (by rw [hs] at hk; simpa using hk)
  | got t k rest hs hp => exact key rfl rfl (fun _ _ => rfl) (fun _ h _ => h) (fun k hk => .inl (by rw [hs]; simpa using hk)) fun p hk => .inl (by rw [hs] at hk; simpa using hk)
  | value t k rest hs hp => exact key rfl rfl (fun _ _ => rfl) (fun _ h _ => h) (fun k hk => .inl (by rw [hs]; simpa using hk)) fun p hk => .inl (by rw [hs] at hk; simpa using hk)
  | close t p rest hs =>
    intro p' hp'
    have hsub : ∀ {u k}, Frame.push2 k ∈ upd s.stk t (.stop2 p :: rest) u → .push2 k ∈ s.stk u := by
      intro u k hk
      by_cases hu : u = t
      · subst hu; rw [hs]; simpa using hk
      · rwa [upd_other hu] at hk
    by_cases he : p' = p
    · subst he
      refine ⟨fun u k hk => ?_, .inr ⟨t, by simp⟩⟩
      cases hcl : s.closed p' with
      | true => exact (h p' hcl).1 u k (hsub hk)
      | false => exact hc p' hcl (by simp) u k (hsub hk)
    · simp only [upd_other he] at hp'
      obtain ⟨h1, h2⟩ := h p' hp'
      refine ⟨fun u k hk => h1 u k (hsub hk), h2.imp (fun x => x) ?_⟩
      rintro ⟨u, hu⟩
      refine ⟨u, ?_⟩
      by_cases hut : u = t
      · subst hut; rw [hs] at hu; simp at hu; simp [hu]
      · simp only [upd_other hut]; exact hu
  | clear t p rest hs =>
    refine key rfl rfl (fun _ _ => rfl) (fun p' hq _ => ?_) (fun k hk => .inl (by rw [hs]; simpa using hk)) fun p' hk => ?_
    · by_cases he : p' = p
      · subst he; simp
      · simp only [upd_other he]; exact hq
    · rw [hs] at hk
      rcases List.mem_cons.1 hk with hk | hk
      · cases hk; exact .inr (by simp)
      · exact .inl hk

theorem Reach.sinv {s : State} (h : Reach Calm s) : SInv s := by
  induction h with
  | init => intro p hp; cases hp
  | @step s s' a hr hc hs ih =>
    obtain ⟨loc, ha⟩ := hr.all
    refine sinv_move ha.inv ih (step_move hs) fun p h0 h1 u k hk => ?_
    obtain ⟨t, rest, ha, hst⟩ := closes hs h0 h1
    exact hc t p rest ha hst u k hk

theorem Reach.any {P : State → Act → Prop} {s : State} (h : Reach P s) : Reachable s := by
  induction h with
  | init => exact .init
  | step _ _ hs ih => exact .step ih trivial hs

/-- The full property: who waits for a function given to a processor that was stopped, and whose `stop` has returned, waits only because the
function is being run. False if `stop` meets a call half-way (`stuck_forever`), which is what is missing here. -/
theorem stop_releases_partial {s : State} (h : Reach Calm s) {t k : Nat} (hw : Waits s t k) (hs : stoppedOf (s.proc k) s.log = true) (hn : ∀ u, .stop2 (s.proc k) ∉ s.stk u) :
    ∃ u, Runs s u (s.proc k) ∧ (.taken k ∈ s.stk u ∨ .code k ∈ s.stk u) := by
  rcases waits_for h.any hw with hq | hu
  · rcases (h.sinv _ (by rw [h.closed]; exact hs)).2 with h0 | ⟨u, hu⟩
    · rw [h0] at hq; cases hq
    · exact absurd hu (hn u)
  · exact hu

/-! ### What does not hold -/

def runs (s : State) : List Act → Option State
  | [] => some s
  | a :: as => (step s a).bind fun s' => runs s' as

theorem runs_reach : ∀ (as : List Act) {s s' : State}, Reachable s → runs s as = some s' → Reachable s'
  | [], _, _, h, hr => by cases hr; exact h
  | a :: as, s, s', h, hr => by
    simp only [runs] at hr
    obtain ⟨s1, h1, h2⟩ := Option.bind_eq_some_iff.1 hr
    exact runs_reach as (.step h trivial h1) h2

def Act.tid : Act → Nat
  | .callExecute t _ | .callValue t _ | .callGet t _ | .callRun t _ _ | .callStop t _ | .reuse t _ | .ret t _ | .throw t | .timeout t | .lib t => t

theorem stk_other {s s' : State} {a : Act} (hs : step s a = some s') {u : Nat} (hu : u ≠ a.tid) : s'.stk u = s.stk u := by
  cases a <;> simp only [Act.tid] at hu <;> simp only [step, lib, finish] at hs <;> (repeat' (first | split at hs | contradiction)) <;>
    (cases hs; simp only [callExecute, callValue, execute, handOut, endLoop]; try (repeat' (first | rfl | (simp only [upd_other hu]; done) | split)))

theorem runs_other {u : Nat} : ∀ (as : List Act) {s s' : State}, runs s as = some s' → (∀ a ∈ as, u ≠ a.tid) → s'.stk u = s.stk u
  | [], _, _, hr, _ => by cases hr; rfl
  | a :: as, s, s', hr, hu => by
    simp only [runs] at hr
    obtain ⟨s1, h1, h2⟩ := Option.bind_eq_some_iff.1 hr
    rw [runs_other as h2 fun b hb => hu b (List.mem_cons_of_mem _ hb), stk_other h1 (hu a (List.mem_cons_self ..))]

/-- Further steps, processor `p` being stopped all the time. -/
inductive Later (p : Nat) : State → State → Prop where
  | refl (s) : Later p s s
  | step {s s1 s2 a} : Later p s s1 → Wait.step s1 a = some s2 → stoppedOf p s2.log = true → Later p s s2

/-- Waiting for ever: the function is in a closed queue nobody will clear. -/
def Lost (s : State) (t k p : Nat) : Prop :=
  (s.stk t).head? = some (.get k) ∧ s.sig k = .pending ∧ k ∈ s.q p ∧ s.closed p = true ∧ ∀ u, .stop1 p ∉ s.stk u ∧ .stop2 p ∉ s.stk u

theorem lost_move {s s' : State} {loc : Nat → Loc} (hi : Inv s loc) {t k p : Nat} (h : Lost s t k p) (hm : Move s s') (hc : s'.closed p = true) : Lost s' t k p := by
  obtain ⟨h1, h2, h3, h4, h5⟩ := h
  have hq : loc k = .queued p := (hi.place.que p k).1 h3
  obtain ⟨rest0, hst⟩ := List.head?_eq_some_iff.1 h1
  have hnc : canCall s t = false := by simp [canCall, hst, Frame.isUser]
  -- the stack of another thread changes
  have key : ∀ {u : Nat} {l : List Frame}, s'.stk = upd s.stk u l → u ≠ t → s'.sig k = s.sig k → k ∈ s'.q p → (∀ f ∈ l, f ∈ s.stk u ∨ (f ≠ .stop1 p ∧ f ≠ .stop2 p)) → Lost s' t k p := by
    intro u l hs hu hsig hq' hl
    refine ⟨by rw [hs, upd_other (Ne.symm hu)]; exact h1, by rw [hsig]; exact h2, hq', hc, fun u' => ?_⟩
    rw [hs]
    by_cases hu' : u' = u
    · subst hu'
      rw [upd_self]
      exact ⟨fun hf => (hl _ hf).elim (h5 u').1 fun h => h.1 rfl, fun hf => (hl _ hf).elim (h5 u').2 fun h => h.2 rfl⟩
    · rw [upd_other hu']; exact h5 u'
  have hcall : ∀ {u}, canCall s u = true → u ≠ t := by rintro u hu rfl; rw [hnc] at hu; cases hu
  have htop : ∀ {u f rest}, s.stk u = f :: rest → f ≠ .get k → u ≠ t := by
    rintro u f rest hu hf rfl
    rw [hst] at hu; cases hu; exact hf rfl
  have hother : ∀ {u k' f rest b c r}, s.stk u = f :: rest → f.tag = some (k', b, c) → upd s.sig k' r k = s.sig k := by
    intro u k' f rest b c r hu hf
    refine upd_other ?_
    rintro rfl
    rw [(hi.task hu hf).1] at hq; cases hq
  have sub : ∀ {u f} {rest : List Frame}, s.stk u = f :: rest → ∀ g ∈ rest, g ∈ s.stk u ∨ (g ≠ .stop1 p ∧ g ≠ .stop2 p) := fun hu g hg => .inl (by rw [hu]; exact List.mem_cons_of_mem _ hg)
  cases hm with
  | note t' p' es hp he => exact ⟨h1, h2, h3, h4, h5⟩
  | inline u p' below hcc hp hin hb =>
    refine key rfl (hcall hcc) rfl h3 fun g hg => ?_
    rcases List.mem_cons.1 hg with rfl | hg
    · exact .inr (by simp)
    · rcases hb with rfl | rfl
      · exact .inl hg
      · rcases List.mem_cons.1 hg with rfl | hg
        · exact .inr (by simp)
        · exact .inl hg
  | execute u p' below hcc hp hin hb =>
    refine key rfl (hcall hcc) rfl h3 fun g hg => ?_
    rcases List.mem_cons.1 hg with rfl | hg
    · exact .inr (by simp)
    · rcases hb with rfl | rfl
      · exact .inl hg
      · rcases List.mem_cons.1 hg with rfl | hg
        · exact .inr (by simp)
        · exact .inl hg
  | get u k' hcc ho =>
    refine key rfl (hcall hcc) rfl h3 fun g hg => ?_
    rcases List.mem_cons.1 hg with rfl | hg
    · exact .inr (by simp)
    · exact .inl hg
  | run u p' timed hcc =>
    refine key rfl (hcall hcc) rfl h3 fun g hg => ?_
    rcases List.mem_cons.1 hg with rfl | hg
    · exact .inr (by simp)
    · exact .inl hg
  | stop u p' hcc hp =>
    have : p' ≠ p := by rintro rfl; rw [h4] at hp; cases hp
    refine key rfl (hcall hcc) rfl h3 fun g hg => ?_
    rcases List.mem_cons.1 hg with rfl | hg
    · exact .inr (by simp [this])
    · exact .inl hg
  | reuse u p' => exact ⟨h1, h2, h3, hc, h5⟩
  | finish u k' rest r e hs hr => exact key rfl (htop hs (by simp)) (hother hs rfl) h3 (sub hs)
  | finishIn u k' rest r e hs hr => exact key rfl (htop hs (by simp)) (hother hs rfl) h3 (sub hs)
  | leave u p' timed set rest hs => exact key rfl (htop hs (by simp)) rfl h3 (sub hs)
  | drop u k' f rest hs hf hcl =>
    rcases hf with rfl | rfl
    · exact key rfl (htop hs (by simp)) (hother hs rfl) h3 (sub hs)
    · exact key rfl (htop hs (by simp)) (hother hs rfl) h3 (sub hs)
  | pass u k' f g rest hs hf hcl =>
    refine key rfl (htop hs (by rcases hf with ⟨rfl, -⟩ | ⟨rfl, -⟩ <;> simp)) rfl h3 fun g' hg => ?_
    rcases List.mem_cons.1 hg with rfl | hg
    · exact .inr (by rcases hf with ⟨-, rfl⟩ | ⟨-, rfl⟩ <;> simp)
    · exact sub hs _ hg
  | insert u k' rest hs =>
    refine key rfl (htop hs (by simp)) rfl ?_ (sub hs)
    by_cases hp : p = s.proc k'
    · rw [hp] at h3 ⊢; simp [h3]
    · simp only [upd_other hp]; exact h3
  | take u p' k' timed set rest q' hs hcl hq' =>
    have : p ≠ p' := by rintro rfl; rw [h4] at hcl; cases hcl
    refine key rfl (htop hs (by simp)) rfl (by simp only [upd_other this]; exact h3) fun g hg => ?_
    rcases List.mem_cons.1 hg with rfl | hg
    · exact .inr (by simp)
    · exact .inl (by rw [hs]; exact hg)
  | invoke u k' rest hs =>
    refine key rfl (htop hs (by simp)) rfl h3 fun g hg => ?_
    rcases List.mem_cons.1 hg with rfl | hg
    · exact .inr (by simp)
    · exact sub hs _ hg
  | got u k' rest hs hp =>
    refine key rfl (htop hs ?_) rfl h3 (sub hs)
    intro he; cases he; exact hp h2
  | value u k' rest hs hp => exact key rfl (htop hs (by simp)) rfl h3 (sub hs)
  | close u p' rest hs =>
    have : p' ≠ p := by rintro rfl; exact (h5 u).1 (by rw [hs]; exact List.mem_cons_self ..)
    refine key rfl (htop hs (by simp)) rfl h3 fun g hg => ?_
    rcases List.mem_cons.1 hg with rfl | hg
    · exact .inr (by simp [this])
    · exact sub hs _ hg
  | clear u p' rest hs =>
    have : p' ≠ p := by rintro rfl; exact (h5 u).2 (by rw [hs]; exact List.mem_cons_self ..)
    refine key rfl (htop hs (by simp)) ?_ (by simp only [upd_other (Ne.symm this)]; exact h3) (sub hs)
    have hn : k ∉ s.q p' := fun hk => by
      rw [(hi.place.que p' k).1 hk] at hq; cases hq; exact this rfl
    simp only [if_neg hn]

theorem lost_forever {s s' : State} (h : Reachable s) {t k p : Nat} (hl : Lost s t k p) (hs : Later p s s') : Reachable s' ∧ Lost s' t k p := by
  induction hs with
  | refl => exact ⟨h, hl⟩
  | step _ hst hstop ih =>
    obtain ⟨ih1, ih2⟩ := ih
    obtain ⟨loc, ha⟩ := ih1.all
    have hr := Reach.step ih1 trivial hst
    exact ⟨hr, lost_move ha.inv ih2 (step_move hst) (by rw [hr.closed]; exact hstop)⟩

/-- `stop` (thread 2) while a call of `waitableExecute` (thread 1) is half-way: the caller waits for ever, although `stop` has returned,
unless the processor is used again. -/
theorem stuck_forever : ∃ s, Reachable s ∧ .stopped 2 7 ∈ s.log ∧ ∀ s', Later 7 s s' → Waits s' 1 0 := by
  have hv : (runs State.init [.callExecute 1 7, .lib 1, .lib 1, .callStop 2 7, .lib 2, .lib 2, .lib 1, .callGet 1 0]).map (fun s => (s.stk 1, s.sig 0, s.q 7, s.closed 7, s.log, s.stk 2)) =
      some ([.get 0], .pending, [0], true, [.made 1 0 7, .closed 2 7, .stopped 2 7], []) := by rfl
  obtain ⟨s, hr, he⟩ := Option.map_eq_some_iff.1 hv
  simp only [Prod.mk.injEq] at he
  obtain ⟨e1, e2, e3, e4, e5, e6⟩ := he
  have hl : Lost s 1 0 7 := by
    refine ⟨by rw [e1]; rfl, e2, by rw [e3]; exact List.mem_cons_self .., e4, ?_⟩
    intro u
    by_cases h1 : u = 1
    · subst h1; rw [e1]; simp
    · by_cases h2 : u = 2
      · subst h2; rw [e6]; simp
      · rw [runs_other _ hr (by simp [Act.tid, h1, h2])]; simp [State.init]
  refine ⟨s, runs_reach _ .init hr, by rw [e5]; decide, fun s' hs => ?_⟩
  have := (lost_forever (runs_reach _ .init hr) hl hs).2
  exact ⟨.inl this.1, this.2.1⟩

/-- The template returns a value the function has not returned: the processor was stopped before it was run. -/
theorem value_made_up : ∃ s, Reachable s ∧ s.log = [.made 1 0 7, .closed 2 7, .stopped 2 7, .value 1 0 0] := by
  have hv : (runs State.init [.callValue 1 7, .lib 1, .lib 1, .lib 1, .callStop 2 7, .lib 2, .lib 2, .lib 1]).map (·.log) = some [.made 1 0 7, .closed 2 7, .stopped 2 7, .value 1 0 0] := by rfl
  obtain ⟨s, hr, he⟩ := Option.map_eq_some_iff.1 hv
  exact ⟨s, runs_reach _ .init hr, he⟩

/-- Two processors whose functions wait for each other: nobody goes on. -/
theorem cross_deadlock : ∃ s, Reachable s ∧ Waits s 1 3 ∧ Waits s 2 2 ∧ Runs s 1 7 ∧ Runs s 2 8 ∧ ¬ Goes s 1 ∧ ¬ Goes s 2 := by
  have hv : (runs State.init [.callRun 1 7 false, .callRun 2 8 false, .callExecute 0 7, .lib 0, .lib 0, .lib 0, .callExecute 0 8, .lib 0, .lib 0, .lib 0, .lib 1, .lib 1, .lib 2, .lib 2,
      .callExecute 2 7, .lib 2, .lib 2, .lib 2, .callExecute 1 8, .lib 1, .lib 1, .lib 1, .callGet 2 2, .callGet 1 3]).map (fun s => (s.stk 1, s.stk 2, s.sig 2, s.sig 3)) =
      some ([.get 3, .code 0, .loop 7 false true], [.get 2, .code 1, .loop 8 false true], .pending, .pending) := by rfl
  obtain ⟨s, hr, he⟩ := Option.map_eq_some_iff.1 hv
  simp only [Prod.mk.injEq] at he
  obtain ⟨e1, e2, e3, e4⟩ := he
  refine ⟨s, runs_reach _ .init hr, ⟨.inl (by rw [e1]; rfl), e4⟩, ⟨.inl (by rw [e2]; rfl), e3⟩, ⟨false, true, by rw [e1]; simp⟩, ⟨false, true, by rw [e2]; simp⟩, ?_, ?_⟩
  · simp [Goes, e1, step, lib, e4]
  · simp [Goes, e2, step, lib, e3]

/-- A function that runs its own loop of another processor, and in there waits for this processor, waits for itself. -/
theorem nested_deadlock : ∃ s, Reachable s ∧ s.stk 1 = [.get 2, .code 1, .loop 8 false false, .code 0, .loop 7 false true] ∧ s.proc 2 = 8 ∧ Waits s 1 2 ∧ ¬ Goes s 1 := by
  have hv : (runs State.init [.callRun 1 7 false, .callExecute 0 7, .lib 0, .lib 0, .lib 0, .callExecute 0 8, .lib 0, .lib 0, .lib 0, .lib 1, .lib 1, .callRun 1 8 false, .lib 1, .lib 1,
      .callExecute 1 8, .lib 1, .lib 1, .lib 1, .callGet 1 2]).map (fun s => (s.stk 1, s.proc 2, s.sig 2)) =
      some ([.get 2, .code 1, .loop 8 false false, .code 0, .loop 7 false true], 8, .pending) := by rfl
  obtain ⟨s, hr, he⟩ := Option.map_eq_some_iff.1 hv
  simp only [Prod.mk.injEq] at he
  obtain ⟨e1, e2, e3⟩ := he
  exact ⟨s, runs_reach _ .init hr, e1, e2, ⟨.inl (by rw [e1]; rfl), e3⟩, by simp [Goes, e1, step, lib, e3]⟩

/-! ### Examples -/

def logOf (as : List Act) : Option (List Ev) := (runs State.init as).map (·.log)

/-- Given by another thread, run, waited for; inline; thrown; a stopped processor. -/
example : logOf [.callRun 1 7 false, .callExecute 0 7, .lib 0, .lib 0, .lib 0, .callGet 0 0, .lib 1, .lib 1, .callExecute 1 7, .ret 1 5, .callGet 1 1, .lib 1, .ret 1 6, .lib 0, .callValue 0 7, .lib 0, .lib 0,
    .lib 0, .lib 1, .lib 1, .throw 1, .lib 0, .callStop 0 7, .lib 0, .lib 0, .callExecute 0 7] =
    some [.made 0 0 7, .ran 1 0 7, .made 1 1 7, .ran 1 1 7, .returned 1 1 5, .got 1 1 (.done 5), .returned 1 0 6, .got 0 0 (.done 6), .made 0 2 7, .ran 1 2 7, .threw 1 2, .value 0 2 0, .closed 0 7, .stopped 0 7,
      .refused 0 7] := by rfl

/-- The hypotheses of `no_deadlock`: thread 0 waits for 7, whose thread 1 waits for 8, which thread 2 runs. -/
example : ∃ s, Reachable s ∧ Waits s 0 0 ∧ Waits s 1 1 ∧ Ranked (fun p => if p = 8 then 0 else 1) s ∧ Flat s ∧ Served s := by
  have hv : (runs State.init [.callRun 1 7 false, .callRun 2 8 false, .callExecute 0 7, .lib 0, .lib 0, .lib 0, .callGet 0 0, .lib 1, .lib 1, .callExecute 1 8, .lib 1, .lib 1, .lib 1, .callGet 1 1]).map
      (fun s => (s.stk 0, s.stk 1, s.stk 2, s.next, s.proc 0, s.proc 1)) = some ([.get 0], [.get 1, .code 0, .loop 7 false true], [.loop 8 false true], 2, 7, 8) := by rfl
  have hv2 : (runs State.init [.callRun 1 7 false, .callRun 2 8 false, .callExecute 0 7, .lib 0, .lib 0, .lib 0, .callGet 0 0, .lib 1, .lib 1, .callExecute 1 8, .lib 1, .lib 1, .lib 1, .callGet 1 1]).map
      (fun s => (s.sig 0, s.sig 1, s.q 7, s.closed 8)) = some (.pending, .pending, [], false) := by rfl
  obtain ⟨s, hr, he⟩ := Option.map_eq_some_iff.1 hv
  rw [hr] at hv2
  simp only [Option.map_some, Option.some.injEq, Prod.mk.injEq] at he hv2
  obtain ⟨e0, e1, e2, en, p0, p1⟩ := he
  obtain ⟨s0, s1, q7, c8⟩ := hv2
  have hre : Reachable s := runs_reach _ .init hr
  have hall : ∀ u, (u = 0 ∨ u = 1 ∨ u = 2) ∨ s.stk u = [] := by
    intro u
    by_cases h0 : u = 0
    · exact .inl (.inl h0)
    · by_cases h1 : u = 1
      · exact .inl (.inr (.inl h1))
      · by_cases h2 : u = 2
        · exact .inl (.inr (.inr h2))
        · exact .inr (by rw [runs_other _ hr (by simp [Act.tid, h0, h1, h2])]; rfl)
  refine ⟨s, hre, ⟨.inl (by rw [e0]; rfl), s0⟩, ⟨.inl (by rw [e1]; rfl), s1⟩, ?_, ?_, ?_⟩
  · rintro u p k ⟨a, b, hl⟩ hh
    rcases hall u with (rfl | rfl | rfl) | hn
    · rw [e0] at hl; simp at hl
    · rw [e1] at hl hh
      simp at hl hh
      rw [← hh, p1, hl.1]; decide
    · rw [e2] at hh; simp at hh
    · rw [hn] at hl; cases hl
  · intro u p timed set a b hst
    rcases hall u with (rfl | rfl | rfl) | hn
    · rw [e0] at hst
      have := congrArg List.length hst
      cases a <;> simp at hst
    · rw [e1] at hst
      match a, hst with
      | [], h => simp at h
      | [_], h => simp at h
      | [_, _], h => simp at h; exact h.2.2.2
      | _ :: _ :: _ :: _, h => simp at h
    · rw [e2] at hst
      match a, hst with
      | [], h => simp at h; exact h.2
      | _ :: _, h => simp at h
    · rw [hn] at hst; simp at hst
  · intro p hp
    obtain ⟨loc, ha⟩ := hre.all
    obtain ⟨k, hk⟩ := List.exists_mem_of_ne_nil _ hp
    have hkp := ha.inv.qp p k hk
    have hlt : k < s.next := Nat.lt_of_not_le fun hle => by
      have := (ha.inv.place.que p k).1 hk
      rw [(ha.inv.fresh k).2 hle] at this; cases this
    rw [en] at hlt
    have hk01 : k = 0 ∨ k = 1 := by omega
    rcases hk01 with rfl | rfl
    · rw [p0] at hkp; subst hkp; exact absurd q7 hp
    · rw [p1] at hkp; subst hkp; exact ⟨c8, 2, false, true, by rw [e2]; simp⟩

theorem three {s : State} (acts : List Act) (hr : runs State.init acts = some s) (ha : ∀ a ∈ acts, a.tid < 3) {f : Frame} (hf : f ∉ s.stk 0 ∧ f ∉ s.stk 1 ∧ f ∉ s.stk 2) (u : Nat) : f ∉ s.stk u := by
  by_cases hu : 3 ≤ u
  · rw [runs_other acts hr fun a h => by have := ha a h; omega]; simp [State.init]
  · have : u = 0 ∨ u = 1 ∨ u = 2 := by omega
    rcases this with rfl | rfl | rfl
    · exact hf.1
    · exact hf.2.1
    · exact hf.2.2

theorem calm_of {s : State} (acts : List Act) (hr : runs State.init acts = some s) (ha : ∀ a ∈ acts, a.tid < 3) (hf : ∀ k, .push2 k ∉ s.stk 0 ∧ .push2 k ∉ s.stk 1 ∧ .push2 k ∉ s.stk 2) {a : Act} : Calm s a :=
  fun _ _ _ _ _ u k hk => absurd hk (three acts hr ha (hf k) u)

theorem nostop_of {s : State} (p : Nat) (acts : List Act) (hr : runs State.init acts = some s) (ha : ∀ a ∈ acts, a.tid < 3) (hf : .stop2 p ∉ s.stk 0 ∧ .stop2 p ∉ s.stk 1 ∧ .stop2 p ∉ s.stk 2) (u : Nat) : .stop2 p ∉ s.stk u :=
  three acts hr ha hf u

/-- The hypotheses of `stop_releases_partial`: thread 0 waits for a function that thread 1 runs, while thread 2 has stopped the processor. -/
example : ∃ s, Reach Calm s ∧ Waits s 0 0 ∧ stoppedOf (s.proc 0) s.log = true ∧ ∀ u, .stop2 (s.proc 0) ∉ s.stk u := by
  have quiet : ∀ {s : State} {a : Act}, (∀ t, a = .lib t → ∀ p rest, s.stk t ≠ .stop1 p :: rest) → Calm s a := fun h t p rest ha hs => absurd hs (h t ha p rest)
  have r1 : Reach Calm _ := .step .init (quiet (by simp)) (a := .callRun 1 7 false) rfl
  have r2 : Reach Calm _ := .step r1 (quiet (by simp)) (a := .callExecute 0 7) rfl
  have r3 : Reach Calm _ := .step r2 (quiet (by intro t h; cases h; intro p rest h; cases h)) (a := .lib 0) rfl
  have r4 : Reach Calm _ := .step r3 (quiet (by intro t h; cases h; intro p rest h; cases h)) (a := .lib 0) rfl
  have r5 : Reach Calm _ := .step r4 (quiet (by intro t h; cases h; intro p rest h; cases h)) (a := .lib 0) rfl
  have r6 : Reach Calm _ := .step r5 (quiet (by simp)) (a := .callGet 0 0) rfl
  have r7 : Reach Calm _ := .step r6 (quiet (by intro t h; cases h; intro p rest h; cases h)) (a := .lib 1) rfl
  have r8 : Reach Calm _ := .step r7 (quiet (by intro t h; cases h; intro p rest h; cases h)) (a := .lib 1) rfl
  have r9 : Reach Calm _ := .step r8 (quiet (by simp)) (a := .callStop 2 7) rfl
  have r10 : Reach Calm _ := .step r9 (calm_of [.callRun 1 7 false, .callExecute 0 7, .lib 0, .lib 0, .lib 0, .callGet 0 0, .lib 1, .lib 1, .callStop 2 7] rfl (by simp [Act.tid]) (by
    intro k
    exact ⟨fun hk => (by have hk : Frame.push2 k ∈ [Frame.get 0] := hk; simp at hk), fun hk => (by have hk : Frame.push2 k ∈ [Frame.code 0, .loop 7 false true] := hk; simp at hk),
      fun hk => (by have hk : Frame.push2 k ∈ [Frame.stop1 7] := hk; simp at hk)⟩)) (a := .lib 2) rfl
  have r11 : Reach Calm _ := .step r10 (quiet (by intro t h; cases h; intro p rest h; cases h)) (a := .lib 2) rfl
  exact ⟨_, r11, ⟨.inl rfl, rfl⟩, rfl, nostop_of 7 [.callRun 1 7 false, .callExecute 0 7, .lib 0, .lib 0, .lib 0, .callGet 0 0, .lib 1, .lib 1, .callStop 2 7, .lib 2, .lib 2] rfl (by simp [Act.tid])
    ⟨fun hk => (by have hk : Frame.stop2 7 ∈ [Frame.get 0] := hk; simp at hk), fun hk => (by have hk : Frame.stop2 7 ∈ [Frame.code 0, .loop 7 false true] := hk; simp at hk),
      fun hk => (by have hk : Frame.stop2 7 ∈ ([] : List Frame) := hk; simp at hk)⟩⟩

end Maf.Wait
