import Verif.Lemmas.Executor

namespace Maf.Exe

variable {c : Conf}

/-- What must have come before an event. -/
def Rule (c : Conf) (l : List Ev) : Ev → Prop
  | .ran n f on => (∀ g o, Ev.ran n g o ∉ l) ∧
      ((∃ k p, Ev.asked n k p f ∈ l ∧ on = some p ∧ closedAfter p l false = false ∧ Ev.gone p ∉ l ∧ Ev.returned n .no ∉ l) ∨
        Ev.direct n f ∈ l)
  | .returned n .no => (∀ f, Ev.direct n f ∈ l → c.throws f = true) ∧ ∀ k p f, Ev.asked n k p f ∈ l → ∀ g o, Ev.ran n g o ∉ l
  | .left p => (∃ l' n f k, l = l' ++ [.ran n f (some p)] ∧ Ev.asked n k p f ∈ l' ∧ k ≠ .wait ∧ c.throws f = true) ∨
      ∃ n k, Ev.askedEmpty n k p ∈ l ∧ k ≠ .wait
  | .asked n _ _ _ => ∀ e ∈ l, e.num = some n → ∃ i, e = .called n i
  | .askedEmpty n _ _ => ∀ e ∈ l, e.num = some n → ∃ i, e = .called n i
  | .direct n _ => ∀ e ∈ l, e.num ≠ some n
  | _ => True

/-- Every new event obeys its rule. -/
def Rules (c : Conf) (l : List Ev) : List Ev → Prop
  | [] => True
  | e :: es => Rule c l e ∧ Rules c (l ++ [e]) es

theorem hist_rules {l es : List Ev} (h : Hist (Rule c) l) (hr : Rules c l es) : Hist (Rule c) (l ++ es) := by
  induction es generalizing l with
  | nil => simpa using h
  | cons e es ih => have := ih (h.one hr.1) hr.2; simpa using this

theorem rules_append {l a b : List Ev} : Rules c l (a ++ b) ↔ Rules c l a ∧ Rules c (l ++ a) b := by
  induction a generalizing l with
  | nil => simp [Rules]
  | cons e a ih => simp [Rules, ih, and_assoc]

theorem rule_ask {s : St} (hI : Inv c s) {pre : List Ev} (hp : Pre s.next pre) (k p fn) : Rule c (s.log ++ pre) (askEv s.next k p fn) := by
  have : ∀ e ∈ s.log ++ pre, e.num = some s.next → ∃ i, e = .called s.next i := by
    intro e he hn
    rcases List.mem_append.1 he with he | he
    · exact (hI.unused he hn).elim
    · exact mem_pre hp he
  cases fn <;> exact this

theorem rules_pre {n : Nat} {pre l : List Ev} (hp : Pre n pre) : Rules c l pre := by
  rcases hp with rfl | ⟨i, rfl⟩
  · trivial
  · exact ⟨trivial, trivial⟩

theorem rule_ret {l : List Ev} {n : Nat} {r : Ret} (h : r = .no → Rule c l (.returned n .no)) : Rule c l (.returned n r) := by
  cases r with
  | no => exact h rfl
  | _ => trivial

theorem rule_post {l : List Ev} {n : Nat} {e : Ev} (h : Post n e) : Rule c l e := by
  rcases h with rfl | ⟨r, rfl, hr⟩
  · trivial
  · exact rule_ret fun h => absurd h hr

/-- an event with the number of a new call is not in the log -/
theorem Inv.new {s : St} (h : Inv c s) {e : Ev} (hn : e.num = some s.next) : e ∉ s.log := fun he => h.unused he hn

theorem pre_no {n : Nat} {pre : List Ev} (hp : Pre n pre) {e : Ev} (he : ∀ i, e ≠ .called n i) : e ∉ pre := by
  intro hm; obtain ⟨i, rfl⟩ := mem_pre hp hm; exact he i rfl

theorem ask_ne_ran {n k p fn m g o} : Ev.ran m g o ≠ askEv n k p fn := by intro h; cases fn <;> cases h
theorem ask_ne_ret {n k p fn m r} : Ev.returned m r ≠ askEv n k p fn := by intro h; cases fn <;> cases h
theorem ask_ne_dir {n k p fn m f} : Ev.direct m f ≠ askEv n k p fn := by intro h; cases fn <;> cases h
theorem ask_ne_gone {n k p fn q} : Ev.gone q ≠ askEv n k p fn := by intro h; cases fn <;> cases h

theorem quiet_ask (n k p fn) : (askEv n k p fn).quiet = true := by cases fn <;> rfl

theorem quiet_pre {n : Nat} {pre : List Ev} (hp : Pre n pre) : ∀ e ∈ pre, e.quiet = true := by
  intro e he; obtain ⟨i, rfl⟩ := mem_pre hp he; rfl

/-- The tasks in a queue were handed over, with `waitableExecute` exactly if guarded. -/
def Guarded (s : St) : Prop := ∀ p t, t ∈ s.queue p → ∃ k, askEv t.call k p t.fn ∈ s.log ∧ t.guarded = (k == .wait)

theorem guarded_step {s s' : St} (hg : Guarded s) (h : Case c s s') : Guarded s' := by
  obtain ⟨es, hlog, -⟩ := case_new h
  have old : ∀ p t, t ∈ s.queue p → ∃ k, askEv t.call k p t.fn ∈ s'.log ∧ t.guarded = (k == .wait) := by
    intro p t ht; obtain ⟨k, h1, h2⟩ := hg p t ht; exact ⟨k, by rw [hlog]; simp [h1], h2⟩
  have sub : (∀ p t, t ∈ s'.queue p → t ∈ s.queue p) → Guarded s' := fun hs p t ht => old p t (hs p t ht)
  have subu : ∀ {p : Nat} {x : List Task}, (∀ t ∈ x, t ∈ s.queue p) → s'.queue = upd s.queue p x → Guarded s' := by
    intro p x hx hq
    refine sub fun p' t ht => ?_
    rw [hq] at ht; unfold upd at ht
    by_cases hp : p' = p
    · subst hp; rw [if_pos rfl] at ht; exact hx t ht
    · rw [if_neg hp] at ht; exact ht
  cases h with
  | lost hp hc hlog' hq => exact sub (by rw [hq]; exact fun _ _ h => h)
  | @put k p fn pre r hp hc ha hr hlog' hq =>
    intro p' t ht
    rw [hq] at ht; unfold upd at ht
    by_cases hpp : p' = p
    · subst hpp; rw [if_pos rfl] at ht
      rcases List.mem_append.1 ht with ht | ht
      · exact old p' t ht
      · rw [List.mem_singleton] at ht; subst ht
        exact ⟨k, by rw [hlog']; simp, rfl⟩
    · rw [if_neg hpp] at ht; exact old p' t ht
  | now hp hc ha hpost hlog' hq => exact sub (by rw [hq]; exact fun _ _ h => h)
  | direct hlog' hr hq => exact sub (by rw [hq]; exact fun _ _ h => h)
  | deadWill hlog' hq => exact sub (by rw [hq]; exact fun _ _ h => h)
  | run hc hqp hlog' hq => exact subu (by rw [hqp]; exact fun t ht => List.mem_cons_of_mem _ ht) hq
  | resume hm hnq hlog' hq => exact sub (by rw [hq]; exact fun _ _ h => h)
  | stop hlog' hq => exact subu (by simp) hq
  | reuse hlog' hq => exact sub (by rw [hq]; exact fun _ _ h => h)
  | gone hlog' hq => exact subu (by simp) hq
  | same hlog' hq => exact sub (by rw [hq]; exact fun _ _ h => h)

theorem hist_step {s s' : St} (hI : Inv c s) (hg : Guarded s) (hh : Hist (Rule c) s.log) (h : Case c s s') : Hist (Rule c) s'.log := by
  cases h with
  | @lost k p fn r pre hp hc hlog =>
    rw [hlog]
    refine hist_rules hh (rules_append.2 ⟨rules_pre hp, rule_ask hI hp .., rule_ret fun _ => ⟨fun f hf => ?_, fun k' p' f _ g o hr => ?_⟩, trivial⟩)
    · simp only [List.mem_append, List.mem_singleton] at hf
      rcases hf with (hf | hf) | hf
      · exact (hI.new (by rfl) hf).elim
      · exact (pre_no hp (by simp) hf).elim
      · exact (ask_ne_dir hf).elim
    · simp only [List.mem_append, List.mem_singleton] at hr
      rcases hr with (hf | hf) | hf
      · exact hI.new (by rfl) hf
      · exact pre_no hp (by simp) hf
      · exact ask_ne_ran hf
  | @put k p fn pre r hp hc ha hr hlog =>
    rw [hlog]
    refine hist_rules hh (rules_append.2 ⟨rules_append.2 ⟨rules_pre hp, rule_ask hI hp .., trivial⟩, ?_⟩)
    by_cases hk : k = .wait
    · rw [if_pos hk]; trivial
    · rw [if_neg hk]; exact ⟨rule_ret fun h => absurd h hr, trivial⟩
  | @now k p fn pre post hp hc ha hpost hlog =>
    rw [hlog]
    refine hist_rules hh (rules_append.2 ⟨rules_append.2 ⟨rules_append.2 ⟨rules_pre hp, rule_ask hI hp .., trivial⟩, ?_⟩, rule_post hpost, trivial⟩)
    cases fn with
    | none => trivial
    | some f =>
      refine ⟨⟨fun g o hm => ?_, .inl ⟨k, p, by simp [askEv], rfl, ?_, fun hm => ?_, fun hm => ?_⟩⟩, trivial⟩
      · simp only [List.mem_append, List.mem_singleton] at hm
        rcases hm with hf | hf | hf
        · exact hI.new (by rfl) hf
        · exact pre_no hp (by simp) hf
        · exact ask_ne_ran hf
      · rw [← List.append_assoc, closedAfter_append, closedAfter_append, ← hI.cl p, closedAfter_quiet (quiet_pre hp), hc]; rfl
      · simp only [List.mem_append, List.mem_singleton] at hm
        rcases hm with hf | hf | hf
        · exact (hI.al p).1 ha hf
        · exact pre_no hp (by simp) hf
        · exact ask_ne_gone hf
      · simp only [List.mem_append, List.mem_singleton] at hm
        rcases hm with hf | hf | hf
        · exact hI.new (by rfl) hf
        · exact pre_no hp (by simp) hf
        · exact ask_ne_ret hf
  | @direct f on r hlog hr =>
    rw [hlog]
    refine hist_rules hh ⟨fun e he => hI.unused he, ⟨fun g o hm => ?_, .inr (by simp)⟩, rule_ret fun hno => ⟨fun g hg => ?_, fun k p g hg => ?_⟩, trivial⟩
    · simp at hm; exact hI.new (by rfl) hm
    · have hf : c.throws f = true := by
        subst hr; cases ht : c.throws f with
        | true => rfl
        | false => rw [ht] at hno; cases hno
      simp at hg
      rcases hg with hg | rfl
      · exact (hI.new (by rfl) hg).elim
      · exact hf
    · simp at hg; exact (hI.new (by rfl) hg).elim
  | deadWill hlog => rw [hlog]; exact hist_rules hh ⟨trivial, trivial, trivial⟩
  | @run p t rest hc hqp hlog =>
    rw [hlog]
    have ht : t ∈ s.queue p := by rw [hqp]; simp
    obtain ⟨k, hk, hgd⟩ := hg p t ht
    have hleft : ∀ l', (t.fn = none → l' = []) → (∀ f, t.fn = some f → l' = [.ran t.call f (some p)]) →
        Rules c (s.log ++ l') (if bad c t.fn && !t.guarded then [.left p] else []) := by
      intro l' hl0 hl
      cases hb : (bad c t.fn && !t.guarded) with
      | false => trivial
      | true =>
        rw [if_pos rfl]
        simp only [Bool.and_eq_true, Bool.not_eq_true'] at hb
        have hkw : k ≠ .wait := by
          rintro rfl; rw [hb.2] at hgd; cases hgd
        refine ⟨?_, trivial⟩
        cases hfn : t.fn with
        | none =>
          refine .inr ⟨t.call, k, ?_, hkw⟩
          rw [hfn] at hk; simp only [askEv] at hk; simp [hk]
        | some f =>
          refine .inl ⟨s.log, t.call, f, k, by rw [hl f hfn], ?_, hkw, ?_⟩
          · rw [hfn] at hk; exact hk
          · have := hb.1; rw [hfn] at this; exact this
    refine hist_rules hh (rules_append.2 ⟨?_, hleft _ (by intro h; rw [h]; rfl) (by intro f h; rw [h]; rfl)⟩)
    cases hfn : t.fn with
    | none => trivial
    | some f =>
      refine ⟨⟨fun g o hm => hI.ranq _ _ _ hm p t ht rfl, .inl ⟨k, p, by rw [hfn] at hk; exact hk, rfl, by rw [← hI.cl p]; exact hc, (hI.al p).1 (hI.open' p t ht).2,
        fun hm => hI.noq _ hm p t ht rfl⟩⟩, trivial⟩
  | @resume n p r hm hnq hlog =>
    rw [hlog]
    exact hist_rules hh ⟨rule_ret fun h => absurd h (hI.wask n p r hm).1, trivial⟩
  | stop hlog => rw [hlog]; exact hist_rules hh ⟨trivial, trivial⟩
  | reuse hlog => rw [hlog]; exact hist_rules hh ⟨trivial, trivial⟩
  | gone hlog => rw [hlog]; exact hist_rules hh ⟨trivial, trivial⟩
  | same hlog => rw [hlog]; exact hh

/-- What becomes of what is handed over. -/
structure Fate (s : St) : Prop where
  /-- handed over to a running processor: run, still waiting, or dropped by `stop` or with the processor -/
  served : ∀ l r n k p f, s.log = l ++ .asked n k p f :: r → closedAfter p l false = false → Ev.gone p ∉ l →
    Ev.ran n f (some p) ∈ r ∨ (∃ t ∈ s.queue p, t.call = n ∧ t.fn = some f) ∨ Ev.stopped p ∈ r ∨ Ev.gone p ∈ r
  /-- handed over to a processor that is stopped or gone: never run -/
  lost : ∀ l r n k p f, s.log = l ++ .asked n k p f :: r → (closedAfter p l false = true ∨ Ev.gone p ∈ l) →
    (∀ g o, Ev.ran n g o ∉ s.log) ∧ ∀ q t, t ∈ s.queue q → t.call ≠ n

theorem split_new {log es l r : List Ev} {e : Ev} (h : log ++ es = l ++ e :: r) :
    (∃ r', log = l ++ e :: r' ∧ r = r' ++ es) ∨ (∃ l', l = log ++ l' ∧ es = l' ++ e :: r) := by
  rcases List.append_eq_append_iff.1 h with ⟨a, ha, hb⟩ | ⟨a, ha, hb⟩
  · exact .inr ⟨a, ha, hb⟩
  · cases a with
    | nil => simp at ha hb; exact .inr ⟨[], by simp [ha], by simp [hb]⟩
    | cons x a => simp at hb; obtain ⟨rfl, rfl⟩ := hb; exact .inl ⟨a, ha, rfl⟩

theorem ask_here {pre tail l' r : List Ev} {n m k k' p p' f fn} (h : pre ++ askEv m k' p' fn :: tail = l' ++ .asked n k p f :: r)
    (h1 : ∀ e ∈ pre, ∀ n k p f, e ≠ .asked n k p f) (h2 : ∀ e ∈ tail, ∀ n k p f, e ≠ .asked n k p f) :
    l' = pre ∧ tail = r ∧ m = n ∧ k' = k ∧ p' = p ∧ fn = some f := by
  rcases places h with ⟨a, b, d⟩ | ⟨x, a, b⟩ | ⟨x, a, b⟩
  · obtain ⟨h3, h4, h5, h6⟩ := askEv_inj (fn' := some f) b
    exact ⟨a.symm, d, h3, h4, h5, h6⟩
  · exact absurd rfl (h2 (.asked n k p f) (by rw [b]; simp) _ _ _ _)
  · exact absurd rfl (h1 (.asked n k p f) (by rw [a]; simp) _ _ _ _)

theorem pre_noask {n : Nat} {pre : List Ev} (hp : Pre n pre) : ∀ e ∈ pre, ∀ n k p f, e ≠ .asked n k p f := by
  intro e he; obtain ⟨i, rfl⟩ := mem_pre hp he; simp

theorem closed_pre {s : St} (hI : Inv c s) {pre : List Ev} (hp : Pre s.next pre) (p : Nat) : closedAfter p (s.log ++ pre) false = s.closed p := by
  rw [closedAfter_append, closedAfter_quiet (quiet_pre hp), ← hI.cl p]

theorem gone_pre {s : St} (hI : Inv c s) {pre : List Ev} (hp : Pre s.next pre) (p : Nat) : Ev.gone p ∈ s.log ++ pre ↔ s.alive p = false := by
  have h := hI.al p
  constructor
  · intro hm
    rcases List.mem_append.1 hm with hm | hm
    · cases ha : s.alive p with
      | false => rfl
      | true => exact absurd hm (h.1 ha)
    · exact absurd hm (pre_no hp (by simp))
  · intro ha
    refine List.mem_append_left _ (Classical.byContradiction fun hn => ?_)
    rw [h.2 hn] at ha; cases ha

theorem fate_old_served {s s' : St} {es : List Ev} (hN : New c s s' es) {n p f}
    (hq : ∃ t ∈ s.queue p, t.call = n ∧ t.fn = some f) :
    Ev.ran n f (some p) ∈ es ∨ (∃ t ∈ s'.queue p, t.call = n ∧ t.fn = some f) ∨ Ev.stopped p ∈ es ∨ Ev.gone p ∈ es := by
  obtain ⟨t, ht, h1, h2⟩ := hq
  cases hN with
  | fresh a b d e => exact .inr (.inl ⟨t, e p t ht, h1, h2⟩)
  | @run q u rest a b d e =>
    by_cases hp : p = q
    · subst hp
      rw [b] at ht
      rcases List.mem_cons.1 ht with rfl | ht
      · left; rw [e, List.mem_append]; left
        rw [h2, h1]; simp [ranEv]
      · right; left; exact ⟨t, by rw [d]; simp [upd, ht], h1, h2⟩
    · right; left; exact ⟨t, by rw [d]; simp [upd, hp, ht], h1, h2⟩
  | resume a b d e f => exact .inr (.inl ⟨t, by rw [f]; exact ht, h1, h2⟩)
  | other a b d e =>
    rcases e p t ht with h | h
    · exact .inr (.inl ⟨t, h, h1, h2⟩)
    · exact .inr (.inr h)

theorem fate_old_lost {s s' : St} {es : List Ev} (hlog : s'.log = s.log ++ es) (hN : New c s s' es) {n : Nat} (hn : n < s.next)
    (h1 : ∀ g o, Ev.ran n g o ∉ s.log) (h2 : ∀ q t, t ∈ s.queue q → t.call ≠ n) :
    (∀ g o, Ev.ran n g o ∉ s'.log) ∧ ∀ q t, t ∈ s'.queue q → t.call ≠ n := by
  constructor
  · intro g o hm
    rw [hlog] at hm
    rcases List.mem_append.1 hm with hm | hm
    · exact h1 g o hm
    · cases hN with
      | fresh a b =>
        rcases b _ hm with hx | hx
        · cases hx
        · simp only [Ev.num, Option.some.injEq] at hx; omega
      | @run q u rest a b d e =>
        rw [e] at hm
        rcases List.mem_append.1 hm with hm | hm
        · obtain ⟨f, -, hx⟩ := mem_ranEv.1 hm
          simp only [Ev.ran.injEq] at hx
          exact h2 q u (by rw [b]; simp) hx.1.symm
        · cases hb : (bad c u.fn && !u.guarded) <;> simp [hb] at hm
      | resume a b d e => rw [e] at hm; simp at hm
      | other a b => have := (b _ hm).1; cases this
  · intro q t ht hx
    cases hN with
    | fresh a b d e =>
      rcases d q t ht with h | h
      · exact h2 q t h hx
      · omega
    | @run q' u rest a b d e =>
      rw [d] at ht; unfold upd at ht
      by_cases hp : q = q'
      · subst hp; rw [if_pos rfl] at ht; exact h2 q t (by rw [b]; simp [ht]) hx
      · rw [if_neg hp] at ht; exact h2 q t ht hx
    | resume a b d e f => rw [f] at ht; exact h2 q t ht hx
    | other a b d => exact h2 q t (d q t ht) hx

theorem fate_step {s s' : St} (hI : Inv c s) (hF : Fate s) (h : Case c s s') : Fate s' := by
  obtain ⟨es, hlog, hN⟩ := case_new h
  -- a new call, if any
  have hnew : ∀ l' r n k p f, es = l' ++ .asked n k p f :: r →
      (Pre s.next l' ∧ n = s.next) ∧
      (((s.closed p = true ∨ s.alive p = false) ∧ s'.queue = s.queue ∧ ∀ g o, Ev.ran n g o ∉ es) ∨
       (s.closed p = false ∧ s.alive p = true ∧ (Ev.ran n f (some p) ∈ r ∨ ∃ t ∈ s'.queue p, t.call = n ∧ t.fn = some f))) := by
    intro l' r n k p f hes
    have hcan : ∀ {x}, s'.log = s.log ++ x → x = l' ++ .asked n k p f :: r := by
      intro x hx; rw [hlog] at hx; rw [← List.append_cancel_left hx]; exact hes
    have no : ∀ {x}, s'.log = s.log ++ x → (∀ e ∈ x, ∀ n k p f, e ≠ .asked n k p f) → False := by
      intro x hx hn; exact hn (.asked n k p f) (by rw [hcan hx]; simp) _ _ _ _ rfl
    cases h with
    | @lost k' p' fn r' pre hp hc hlog' hq =>
      have hx := hcan hlog'
      obtain ⟨a, b, d, e, g, i⟩ := ask_here hx (pre_noask hp) (by simp)
      subst a; subst d; subst g; subst b
      refine ⟨⟨hp, rfl⟩, .inl ⟨hc, hq, fun g o hm => ?_⟩⟩
      rw [hes] at hm; simp at hm; exact pre_no hp (by simp) hm
    | @put k' p' fn pre r' hp hc ha hr hlog' hq =>
      have hx := hcan hlog'
      rw [List.append_assoc] at hx
      obtain ⟨a, b, d, e, g, i⟩ := ask_here hx (pre_noask hp) (by
        intro e he; by_cases hk : k' = .wait
        · simp [hk] at he
        · simp [hk] at he; subst he; simp)
      subst a; subst d; subst g
      exact ⟨⟨hp, rfl⟩, .inr ⟨hc, ha, .inr ⟨⟨s.next, fn, k' == .wait⟩, by rw [hq]; simp [upd], rfl, i⟩⟩⟩
    | @now k' p' fn pre post hp hc ha hpost hlog' hq =>
      have hx := hcan hlog'
      rw [List.append_assoc, List.append_assoc] at hx
      obtain ⟨a, b, d, e, g, i⟩ := ask_here hx (pre_noask hp) (by
        intro e he
        replace he : e ∈ ranEv s.next (some p') fn ∨ e = post := by simpa using he
        rcases he with he | rfl
        · obtain ⟨f, -, rfl⟩ := mem_ranEv.1 he; simp
        · rcases hpost with rfl | ⟨r, rfl, -⟩ <;> simp)
      subst a; subst d; subst g; subst i
      refine ⟨⟨hp, rfl⟩, .inr ⟨hc, ha, .inl ?_⟩⟩
      rw [← b]; simp [ranEv]
    | direct hlog' => exact (no hlog' (by simp)).elim
    | deadWill hlog' => exact (no hlog' (by simp)).elim
    | @run q t rest hc hqp hlog' =>
      refine (no hlog' ?_).elim
      intro e he
      rcases List.mem_append.1 he with he | he
      · obtain ⟨f, -, rfl⟩ := mem_ranEv.1 he; simp
      · cases hb : (bad c t.fn && !t.guarded) <;> simp [hb] at he; subst he; simp
    | resume hm hnq hlog' => exact (no hlog' (by simp)).elim
    | stop hlog' => exact (no hlog' (by simp)).elim
    | reuse hlog' => exact (no hlog' (by simp)).elim
    | gone hlog' => exact (no hlog' (by simp)).elim
    | same hlog' => exact (no (x := []) (by simpa using hlog') (by simp)).elim
  constructor
  · intro l r n k p f hl hc hg
    rw [hlog] at hl
    rcases split_new hl with ⟨r', h1, rfl⟩ | ⟨l', rfl, h2⟩
    · rcases hF.served l r' n k p f h1 hc hg with h | h | h | h
      · exact .inl (by simp [h])
      · rcases fate_old_served hN h with h | h | h | h
        · exact .inl (by simp [h])
        · exact .inr (.inl h)
        · exact .inr (.inr (.inl (by simp [h])))
        · exact .inr (.inr (.inr (by simp [h])))
      · exact .inr (.inr (.inl (by simp [h])))
      · exact .inr (.inr (.inr (by simp [h])))
    · obtain ⟨⟨hp, rfl⟩, h | ⟨-, -, h | h⟩⟩ := hnew l' r n k p f h2
      · rw [closed_pre hI hp] at hc
        rw [gone_pre hI hp] at hg
        rcases h.1 with h | h
        · rw [h] at hc; cases hc
        · exact absurd h hg
      · exact .inl h
      · exact .inr (.inl h)
  · intro l r n k p f hl hc
    rw [hlog] at hl
    rcases split_new hl with ⟨r', h1, rfl⟩ | ⟨l', rfl, h2⟩
    · have := hF.lost l r' n k p f h1 hc
      exact fate_old_lost hlog hN (hI.fresh (.asked n k p f) (by rw [h1]; simp) n rfl) this.1 this.2
    · obtain ⟨⟨hp, rfl⟩, h | h⟩ := hnew l' r n k p f h2
      · constructor
        · intro g o hm
          rw [hlog] at hm
          rcases List.mem_append.1 hm with hm | hm
          · exact hI.new (by rfl) hm
          · exact h.2.2 g o hm
        · intro q t ht hx
          rw [h.2.1] at ht
          have := hI.qfresh ht; omega
      · rw [closed_pre hI hp, gone_pre hI hp, h.1, h.2.1] at hc; simp at hc

/-- A call that hands over and waits returns when its task was run, or dropped. -/
def Back (l : List Ev) : Ev → Prop
  | .returned n _ => ∀ l1 r1 p f, l = l1 ++ .asked n .wait p f :: r1 → closedAfter p l1 false = false → Ev.gone p ∉ l1 →
      Ev.ran n f (some p) ∈ r1 ∨ Ev.stopped p ∈ r1
  | _ => True

def Backs (l : List Ev) : List Ev → Prop
  | [] => True
  | e :: es => Back l e ∧ Backs (l ++ [e]) es

theorem hist_backs {l es : List Ev} (h : Hist Back l) (hr : Backs l es) : Hist Back (l ++ es) := by
  induction es generalizing l with
  | nil => simpa using h
  | cons e es ih => have := ih (h.one hr.1) hr.2; simpa using this

theorem backs_append {l a b : List Ev} : Backs l (a ++ b) ↔ Backs l a ∧ Backs (l ++ a) b := by
  induction a generalizing l with
  | nil => simp [Backs]
  | cons e a ih => simp [Backs, ih, and_assoc]

theorem back_ask (l n k p fn) : Back l (askEv n k p fn) := by cases fn <;> trivial

theorem backs_pre {n : Nat} {pre l : List Ev} (hp : Pre n pre) : Backs l pre := by
  rcases hp with rfl | ⟨i, rfl⟩
  · trivial
  · exact ⟨trivial, trivial⟩

/-- A waiting call keeps its processor. -/
def Held (s : St) : Prop := ∀ x ∈ s.waits, s.alive x.2.1 = true

theorem held_step {s s' : St} (hH : Held s) (h : Case c s s') : Held s' := by
  have same : s'.waits = s.waits → s'.alive = s.alive → Held s' := fun h1 h2 x hx => by rw [h2]; rw [h1] at hx; exact hH x hx
  cases h with
  | lost hp hc hlog hq hw hn hcl hal => exact same hw hal
  | @put k p fn pre r hp hc ha hr hlog hq hw hn hcl hal =>
    intro x hx
    rw [hw] at hx; rw [hal]
    rcases List.mem_append.1 hx with hx | hx
    · exact hH x hx
    · by_cases hk : k = .wait
      · rw [if_pos hk] at hx; simp at hx; subst hx; exact ha
      · rw [if_neg hk] at hx; cases hx
  | now hp hc ha hpost hlog hq hw hn hcl hal => exact same hw hal
  | direct hlog hr hq hw hn hcl hal => exact same hw hal
  | deadWill hlog hq hw hn hcl hal => exact same hw hal
  | run hc hqp hlog hq hw hn hcl hal => exact same hw hal
  | resume hm hnq hlog hq hw hn hcl hal =>
    intro x hx
    rw [hw] at hx; rw [hal]; exact hH x (List.mem_filter.1 hx).1
  | stop hlog hq hw hn hcl hal => exact same hw hal
  | reuse hlog hq hw hn hcl hal => exact same hw hal
  | gone hlog hq hw hn hcl hal hno =>
    intro x hx
    rw [hw] at hx; rw [hal]; unfold upd; rw [if_neg (hno x hx)]; exact hH x hx
  | same hlog hq hw hn hcl hal => exact same hw hal

theorem back_step {s s' : St} (hI : Inv c s) (hF : Fate s) (hH : Held s) (hh : Hist Back s.log) (h : Case c s s') : Hist Back s'.log := by
  -- a new call that was handed over after `pre`
  have here : ∀ {pre tail : List Ev} {k p fn l1 r1 q f}, Pre s.next pre → (∀ e ∈ tail, ∀ n k p f, e ≠ .asked n k p f) →
      s.log ++ (pre ++ askEv s.next k p fn :: tail) = l1 ++ .asked s.next .wait q f :: r1 →
      l1 = s.log ++ pre ∧ tail = r1 ∧ k = .wait ∧ p = q ∧ fn = some f := by
    intro pre tail k p fn l1 r1 q f hp ht hx
    rcases split_new hx with ⟨r', h1, -⟩ | ⟨l', rfl, h2⟩
    · exact (hI.new (e := .asked s.next .wait q f) (by rfl) (by rw [h1]; simp)).elim
    · obtain ⟨a, b, -, d, e, g⟩ := ask_here h2 (pre_noask hp) ht
      exact ⟨by rw [a], b, d, e, g⟩
  cases h with
  | @lost k p fn r pre hp hc hlog =>
    rw [hlog]
    refine hist_backs hh (backs_append.2 ⟨backs_pre hp, back_ask .., ?_, trivial⟩)
    intro l1 r1 q f hl ho hg
    obtain ⟨rfl, -, -, rfl, -⟩ := here (k := k) (p := p) (fn := fn) (l1 := l1) (r1 := r1) (q := q) (f := f) hp (tail := []) (by simp) (by rw [← hl]; simp)
    rw [closed_pre hI hp] at ho
    rw [gone_pre hI hp] at hg
    rcases hc with h | h
    · rw [h] at ho; cases ho
    · exact absurd h hg
  | @put k p fn pre r hp hc ha hr hlog =>
    rw [hlog]
    refine hist_backs hh (backs_append.2 ⟨backs_append.2 ⟨backs_pre hp, back_ask .., trivial⟩, ?_⟩)
    by_cases hk : k = .wait
    · rw [if_pos hk]; trivial
    · rw [if_neg hk]
      refine ⟨?_, trivial⟩
      intro l1 r1 q f hl ho hg
      obtain ⟨-, -, h, -, -⟩ := here hp (tail := []) (by simp) (by rw [← hl])
      exact absurd h hk
  | @now k p fn pre post hp hc ha hpost hlog =>
    rw [hlog]
    refine hist_backs hh (backs_append.2 ⟨backs_append.2 ⟨backs_append.2 ⟨backs_pre hp, back_ask .., trivial⟩, ?_⟩, ?_, trivial⟩)
    · cases fn <;> simp [ranEv, Backs, Back]
    · rcases hpost with rfl | ⟨r, rfl, -⟩
      · trivial
      · intro l1 r1 q f hl ho hg
        obtain ⟨-, h1, -, rfl, rfl⟩ := here (k := k) (p := p) (fn := fn) (l1 := l1) (r1 := r1) (q := q) (f := f) hp (tail := ranEv s.next (some p) fn) (by
          intro e he; obtain ⟨f, -, rfl⟩ := mem_ranEv.1 he; simp) (by rw [← hl]; simp)
        left; rw [← h1]; simp [ranEv]
  | @direct f on r hlog hr =>
    rw [hlog]
    refine hist_backs hh ⟨trivial, trivial, ?_, trivial⟩
    intro l1 r1 q g hl
    have hm : Ev.asked s.next .wait q g ∈ s.log ++ [.direct s.next f] ++ [.ran s.next f on] := by rw [hl]; simp
    simp at hm
    exact (hI.new (by rfl) hm).elim
  | @deadWill i hlog =>
    rw [hlog]
    refine hist_backs hh ⟨trivial, ?_, trivial⟩
    intro l1 r1 q g hl
    have hm : Ev.asked s.next .wait q g ∈ s.log ++ [.called s.next i] := by rw [hl]; simp
    simp at hm
    exact (hI.new (by rfl) hm).elim
  | @run p t rest hc hqp hlog =>
    rw [hlog]
    refine hist_backs hh (backs_append.2 ⟨?_, ?_⟩)
    · cases t.fn <;> simp [ranEv, Backs, Back]
    · cases (bad c t.fn && !t.guarded) <;> simp [Backs, Back]
  | @resume n p r hm hnq hlog =>
    rw [hlog]
    refine hist_backs hh ⟨?_, trivial⟩
    intro l1 r1 q f hl ho hg
    obtain ⟨-, fn, hfn⟩ := hI.wask n p r hm
    have hu := hI.uniq n .wait p fn .wait q (some f) hfn (by rw [hl]; simp [askEv])
    obtain ⟨-, rfl, -⟩ := hu
    rcases hF.served l1 r1 n .wait p f hl ho hg with h | ⟨t, ht, h, -⟩ | h
    · exact .inl h
    · exact absurd h (hnq t ht)
    · rcases h with h | h
      · exact .inr h
      · exact absurd (by rw [hl]; simp [h]) ((hI.al p).1 (hH _ hm))
  | stop hlog => rw [hlog]; exact hist_backs hh ⟨trivial, trivial⟩
  | reuse hlog => rw [hlog]; exact hist_backs hh ⟨trivial, trivial⟩
  | gone hlog => rw [hlog]; exact hist_backs hh ⟨trivial, trivial⟩
  | same hlog => rw [hlog]; exact hh

structure All (c : Conf) (s : St) : Prop where
  inv : Inv c s
  grd : Guarded s
  hist : Hist (Rule c) s.log
  fate : Fate s
  held : Held s
  back : Hist Back s.log

theorem all_init : All c init :=
  ⟨inv_init, fun p t ht => by simp [init] at ht, Hist.nil, ⟨fun l r n k p f h => by simp [init] at h, fun l r n k p f h => by simp [init] at h⟩, fun x hx => by simp [init] at hx, Hist.nil⟩

theorem all_step {s s' : St} {a : Act} (h : All c s) (hs : step c s a = some s') : All c s' :=
  have hc := step_case hs
  ⟨inv_step h.inv hs, guarded_step h.grd hc, hist_step h.inv h.grd h.hist hc, fate_step h.inv h.fate hc, held_step h.held hc, back_step h.inv h.fate h.held h.back hc⟩

theorem all_runs {s s' : St} {acts : List Act} (h : All c s) (hs : runs c s acts = some s') : All c s' := by
  induction acts generalizing s with
  | nil => cases hs; exact h
  | cons a acts ih =>
    obtain ⟨s1, h1, h2⟩ := Option.bind_eq_some_iff.1 hs
    exact ih (all_step h h1) h2

theorem log_runs {s s' : St} {acts : List Act} (hs : runs c s acts = some s') : ∃ es, s'.log = s.log ++ es := by
  induction acts generalizing s with
  | nil => cases hs; exact ⟨[], by simp⟩
  | cons a acts ih =>
    obtain ⟨s1, h1, h2⟩ := Option.bind_eq_some_iff.1 hs
    obtain ⟨e1, h3, -⟩ := case_new (step_case h1)
    obtain ⟨e2, h4⟩ := ih h2
    exact ⟨e1 ++ e2, by rw [h4, h3, List.append_assoc]⟩

end Maf.Exe
