import Verif.Model.Calls
import Verif.Lemmas.Hist
/-
Calls do what their programs say.
-/
namespace Maf.Calls

variable {Q : Type} {A : Q → Type} {R T : Type}

/-- An operation with its answer. -/
abbrev Op (Q : Type) (A : Q → Type) := (q : Q) × A q

/-- Program `p` does the operations `l` and is at `p'` then. -/
inductive Path : Prog Q A R → List (Op Q A) → Prog Q A R → Prop
  | nil {p} : Path p [] p
  | cons {q k a l p} (h : Path (k a) l p) : Path (.ask q k) (⟨q, a⟩ :: l) p

@[simp] theorem bind_ret (r : R) (f : R → Prog Q A T) : (Prog.ret r >>= f) = f r := rfl
@[simp] theorem bind_pure' (r : R) (f : R → Prog Q A T) : ((pure r : Prog Q A R) >>= f) = f r := rfl
@[simp] theorem bind_crash (f : R → Prog Q A T) : (Prog.crash >>= f) = .crash := rfl
@[simp] theorem bind_ask (q : Q) (k : A q → Prog Q A R) (f : R → Prog Q A T) : (Prog.ask q k >>= f) = .ask q fun a => k a >>= f := rfl
@[simp] theorem ask_bind (q : Q) (f : A q → Prog Q A T) : (ask q >>= f) = .ask q f := rfl
theorem pure_ret (r : R) : (pure r : Prog Q A R) = .ret r := rfl

@[simp] theorem path_ret {r : R} {l : List (Op Q A)} {p : Prog Q A R} : Path (.ret r) l p ↔ l = [] ∧ p = .ret r := by
  constructor
  · intro h; cases h; exact ⟨rfl, rfl⟩
  · rintro ⟨rfl, rfl⟩; exact .nil

@[simp] theorem path_pure {r : R} {l : List (Op Q A)} {p : Prog Q A R} : Path (pure r) l p ↔ l = [] ∧ p = .ret r := path_ret

@[simp] theorem path_crash {l : List (Op Q A)} {p : Prog Q A R} : Path .crash l p ↔ l = [] ∧ p = .crash := by
  constructor
  · intro h; cases h; exact ⟨rfl, rfl⟩
  · rintro ⟨rfl, rfl⟩; exact .nil

theorem path_ask {q : Q} {k : A q → Prog Q A R} {l : List (Op Q A)} {p : Prog Q A R} :
    Path (.ask q k) l p ↔ (l = [] ∧ p = .ask q k) ∨ ∃ a l', l = ⟨q, a⟩ :: l' ∧ Path (k a) l' p := by
  constructor
  · intro h
    cases h with
    | nil => exact .inl ⟨rfl, rfl⟩
    | cons h => exact .inr ⟨_, _, rfl, h⟩
  · rintro (⟨rfl, rfl⟩ | ⟨a, l', rfl, h⟩)
    · exact .nil
    · exact .cons h

@[simp] theorem path_ask_ret {q : Q} {k : A q → Prog Q A R} {l : List (Op Q A)} {r : R} :
    Path (.ask q k) l (.ret r) ↔ ∃ a l', l = ⟨q, a⟩ :: l' ∧ Path (k a) l' (.ret r) := by
  rw [path_ask]; simp

@[simp] theorem path_ask_crash {q : Q} {k : A q → Prog Q A R} {l : List (Op Q A)} :
    Path (.ask q k) l .crash ↔ ∃ a l', l = ⟨q, a⟩ :: l' ∧ Path (k a) l' .crash := by
  rw [path_ask]; simp

theorem Path.trans {p p' p'' : Prog Q A R} {l l' : List (Op Q A)} (h : Path p l p') (h' : Path p' l' p'') : Path p (l ++ l') p'' := by
  induction h with
  | nil => exact h'
  | cons h ih => exact .cons (ih h')

theorem Path.snoc {p : Prog Q A R} {l : List (Op Q A)} {q : Q} {k : A q → Prog Q A R} (h : Path p l (.ask q k)) (a : A q) : Path p (l ++ [⟨q, a⟩]) (k a) := h.trans (.cons .nil)

theorem path_bind {p : Prog Q A R} {f : R → Prog Q A T} {l : List (Op Q A)} {p' : Prog Q A T} (h : Path (p >>= f) l p') :
    (∃ p1, Path p l p1 ∧ p' = (p1 >>= f)) ∨ ∃ l1 l2 r, l = l1 ++ l2 ∧ Path p l1 (.ret r) ∧ Path (f r) l2 p' := by
  induction p generalizing l with
  | ret r => exact .inr ⟨[], l, r, rfl, .nil, h⟩
  | crash => rw [bind_crash, path_crash] at h; obtain ⟨rfl, rfl⟩ := h; exact .inl ⟨_, .nil, rfl⟩
  | ask q k ih =>
    rw [bind_ask, path_ask] at h
    rcases h with ⟨rfl, rfl⟩ | ⟨a, l', rfl, h⟩
    · exact .inl ⟨_, .nil, rfl⟩
    · rcases ih a h with ⟨p1, h1, rfl⟩ | ⟨l1, l2, r, rfl, h1, h2⟩
      · exact .inl ⟨p1, .cons h1, rfl⟩
      · exact .inr ⟨⟨q, a⟩ :: l1, l2, r, rfl, .cons h1, h2⟩

/-- A finished program of two parts has finished the first part. -/
theorem path_bind_ret {p : Prog Q A R} {f : R → Prog Q A T} {l : List (Op Q A)} {r : T} :
    Path (p >>= f) l (.ret r) ↔ ∃ l1 l2 x, l = l1 ++ l2 ∧ Path p l1 (.ret x) ∧ Path (f x) l2 (.ret r) := by
  constructor
  · intro h
    induction p generalizing l with
    | ret x => exact ⟨[], l, x, rfl, .nil, h⟩
    | crash => rw [bind_crash, path_crash] at h; cases h.2
    | ask q k ih =>
      rw [bind_ask, path_ask_ret] at h
      obtain ⟨a, l', rfl, h⟩ := h
      obtain ⟨l1, l2, x, rfl, h1, h2⟩ := ih a h
      exact ⟨⟨q, a⟩ :: l1, l2, x, rfl, .cons h1, h2⟩
  · rintro ⟨l1, l2, x, rfl, h1, h2⟩
    generalize hy : Prog.ret x = y at h1
    induction h1 with
    | nil => subst hy; exact h2
    | cons h ih => exact .cons (ih hy)

/-- The operation `⟨q, a⟩` obeys `P` in the program wherever it occurs, given what was done before. -/
def Along (P : List (Op Q A) → Op Q A → Prop) : List (Op Q A) → Prog Q A R → Prop
  | _, .ret _ => True
  | _, .crash => True
  | pre, .ask q k => ∀ a, P pre ⟨q, a⟩ ∧ Along P (pre ++ [⟨q, a⟩]) (k a)

@[simp] theorem along_ret {P : List (Op Q A) → Op Q A → Prop} {pre : List (Op Q A)} {r : R} : Along P pre (.ret r) := trivial
@[simp] theorem along_pure {P : List (Op Q A) → Op Q A → Prop} {pre : List (Op Q A)} {r : R} : Along P pre (pure r : Prog Q A R) := trivial
@[simp] theorem along_crash {P : List (Op Q A) → Op Q A → Prop} {pre : List (Op Q A)} : Along P pre (.crash : Prog Q A R) := trivial
@[simp] theorem along_ask {P : List (Op Q A) → Op Q A → Prop} {pre : List (Op Q A)} {q : Q} {k : A q → Prog Q A R} :
    Along P pre (.ask q k) ↔ ∀ a, P pre ⟨q, a⟩ ∧ Along P (pre ++ [⟨q, a⟩]) (k a) := Iff.rfl

theorem Along.bind {P : List (Op Q A) → Op Q A → Prop} {pre : List (Op Q A)} {p : Prog Q A R} {f : R → Prog Q A T} (h : Along P pre p)
    (hf : ∀ l r, Path p l (.ret r) → Along P (pre ++ l) (f r)) : Along P pre (p >>= f) := by
  induction p generalizing pre with
  | ret r => simpa using hf [] r .nil
  | crash => trivial
  | ask q k ih =>
    intro a
    refine ⟨(h a).1, ih a (h a).2 fun l r hp => ?_⟩
    have := hf (⟨q, a⟩ :: l) r (.cons hp)
    simpa using this

theorem Along.at {P : List (Op Q A) → Op Q A → Prop} {pre : List (Op Q A)} {p : Prog Q A R} (h : Along P pre p) {l : List (Op Q A)} {q : Q} {k : A q → Prog Q A R}
    (hp : Path p l (.ask q k)) (a : A q) : P (pre ++ l) ⟨q, a⟩ := by
  generalize hy : Prog.ask q k = y at hp
  induction hp generalizing pre with
  | nil => subst hy; simpa using (h a).1
  | cons hp ih => have := ih (h _).2 hy; simpa using this

theorem Along.mono {P P' : List (Op Q A) → Op Q A → Prop} {pre : List (Op Q A)} {p : Prog Q A R} (h : Along P pre p) (hi : ∀ l o, P l o → P' l o) : Along P' pre p := by
  induction p generalizing pre with
  | ret r => trivial
  | crash => trivial
  | ask q k ih => intro a; exact ⟨hi _ _ (h a).1, ih a (h a).2⟩

/-- A program that does not crash. -/
def Safe : Prog Q A R → Prop
  | .ret _ => True
  | .crash => False
  | .ask _ k => ∀ a, Safe (k a)

theorem Safe.bind {p : Prog Q A R} {f : R → Prog Q A T} (h : Safe p) (hf : ∀ r, Safe (f r)) : Safe (p >>= f) := by
  induction p with
  | ret r => exact hf r
  | crash => exact h.elim
  | ask q k ih => exact fun a => ih a (h a)

theorem Safe.path {p : Prog Q A R} {l : List (Op Q A)} (hp : Path p l .crash) (h : Safe p) : False := by
  generalize hy : Prog.crash = y at hp
  induction hp with
  | nil => subst hy; exact h
  | cons hp ih => exact ih (h _) hy

/-! ### Systems -/

variable {S : Sys}

@[simp] theorem upd_same {β : Type} (f : Nat → β) (i : Nat) (v : β) : upd f i v i = v := by simp [upd]
theorem upd_other {β : Type} {f : Nat → β} {i j : Nat} {v : β} (h : j ≠ i) : upd f i v j = f j := by simp [upd, h]

/-- What call `n` has done. -/
def trace (n : Nat) (l : List S.Event) : List S.Event := l.filter (·.cid == n)

theorem trace_append (n : Nat) (l r : List S.Event) : trace n (l ++ r) = trace n l ++ trace n r := by simp [trace]
theorem mem_trace {n : Nat} {l : List S.Event} {e : S.Event} (h : e ∈ trace n l) : e ∈ l := (List.mem_filter.1 h).1
theorem in_trace {l : List S.Event} {e : S.Event} (h : e ∈ l) : e ∈ trace e.cid l := List.mem_filter.2 ⟨h, by simp⟩

/-- The events of a call that has done `l`. -/
def evs (n : Nat) (l : List (Op S.Q S.A)) : List S.Event := l.map fun o => .did n o.1 o.2

theorem evs_append (n : Nat) (l r : List (Op S.Q S.A)) : evs n (l ++ r) = evs n l ++ evs n r := by simp [evs]

/-- What call `n` has done is what its program says, up to where it is. -/
def PcOk (n : Nat) (t : List S.Event) : Pc S.Q S.A S.R → Prop
  | .idle => t = []
  | .at p => ∃ c l, t = .called n c :: evs n l ∧ Path (S.prog c) l p
  | .done => ∃ c l, (∃ r, t = .called n c :: evs n l ++ [.returned n r] ∧ Path (S.prog c) l (.ret r)) ∨ (t = .called n c :: evs n l ++ [.crashed n] ∧ Path (S.prog c) l .crash)

structure Inv (s : State S) : Prop where
  pc : ∀ n, PcOk n (trace n s.log) (s.pc n)
  fresh : ∀ n, s.next ≤ n → s.pc n = .idle

theorem trace_one_other {n : Nat} {e : S.Event} (h : e.cid ≠ n) : trace n [e] = [] := by simp [trace, h]
theorem trace_one_own {n : Nat} {e : S.Event} (h : e.cid = n) : trace n [e] = [e] := by simp [trace, h]

theorem inv_init : Inv (init S) := ⟨fun _ => rfl, fun _ _ => rfl⟩

/-- A step. -/
inductive Steps (s : State S) : State S → Prop
  | call (c : S.Call) (hu : s.ub = false) : Steps s { s with pc := upd s.pc s.next (.at (S.prog c)), next := s.next + 1, log := s.log ++ [.called s.next c] }
  | ret (n : Nat) (r : S.R) (hu : s.ub = false) (h : s.pc n = .at (.ret r)) : Steps s { s with pc := upd s.pc n .done, log := s.log ++ [.returned n r] }
  | crash (n : Nat) (hu : s.ub = false) (h : s.pc n = .at .crash) : Steps s { s with pc := upd s.pc n .done, ub := true, log := s.log ++ [.crashed n] }
  | did (n : Nat) (q : S.Q) (k : S.A q → Prog S.Q S.A S.R) (e : S.Env) (a : S.A q) (sh : S.Sh) (hu : s.ub = false) (h : s.pc n = .at (.ask q k)) (hx : S.exec s.sh n q e = some (a, sh)) :
      Steps s { s with sh := sh, pc := upd s.pc n (.at (k a)), log := s.log ++ [.did n q a] }

theorem step_steps {s s' : State S} {a : Act S} (h : step s a = some s') : Steps s s' := by
  cases a with
  | call c =>
    simp only [step] at h
    split at h
    · cases h
    · next hu => cases h; exact .call c (by simpa using hu)
  | step n e =>
    simp only [step] at h
    split at h
    · cases h
    · next hu =>
      have hu : s.ub = false := by simpa using hu
      split at h
      · cases h
      · cases h
      · next hp => cases h; exact .ret n _ hu hp
      · next hp => cases h; exact .crash n hu hp
      · next hp =>
        split at h
        · cases h
        · next hx => cases h; exact .did n _ _ e _ _ hu hp hx

theorem run_append {s : State S} (a b : List (Act S)) : run s (a ++ b) = (run s a).bind fun s' => run s' b := by
  induction a generalizing s with
  | nil => rfl
  | cons x a ih =>
    simp only [List.cons_append, run]
    cases step s x with
    | none => rfl
    | some s' => simp [ih]

/-- What holds initially and is kept by steps holds always. -/
theorem run_induct {I : State S → Prop} {s : State S} (h0 : I s) (hs : ∀ s s', I s → Steps s s' → I s') {as : List (Act S)} {s' : State S} (hr : run s as = some s') : I s' := by
  induction as generalizing s with
  | nil => cases hr; exact h0
  | cons a as ih =>
    simp only [run] at hr
    cases h : step s a with
    | none => rw [h] at hr; cases hr
    | some s1 => rw [h] at hr; exact ih (hs _ _ h0 (step_steps h)) hr

theorem inv_step {s s' : State S} (h : Inv s) (hs : Steps s s') : Inv s' := by
  cases hs with
  | call c =>
    refine ⟨fun n => ?_, fun n hn => ?_⟩
    · have := h.pc n
      rw [trace_append]
      by_cases e : n = s.next
      · subst e
        have hi := h.fresh _ (Nat.le_refl _)
        rw [hi] at this
        rw [trace_one_own (n := s.next) (e := .called s.next c) rfl, show trace s.next s.log = [] from this]
        simp only [upd_same]
        exact ⟨c, [], rfl, .nil⟩
      · rw [trace_one_other (Ne.symm e), List.append_nil]
        simp only [upd_other e]
        exact this
    · have : n ≠ s.next := by intro e; subst e; exact absurd hn (by simp)
      simp only [upd_other this]
      exact h.fresh n (by simp only at hn; omega)
  | ret m r hu hp =>
    have hlt : m < s.next := by
      rcases Nat.lt_or_ge m s.next with k | k
      · exact k
      · rw [h.fresh m k] at hp; cases hp
    refine ⟨fun n => ?_, fun n hn => ?_⟩
    · have := h.pc n
      rw [trace_append]
      by_cases e : n = m
      · subst e
        rw [hp] at this
        obtain ⟨c, l, ht, hpa⟩ := this
        rw [trace_one_own (n := n) (e := .returned n r) rfl, ht]
        simp only [upd_same]
        exact ⟨c, l, .inl ⟨r, rfl, hpa⟩⟩
      · rw [trace_one_other (Ne.symm e), List.append_nil]
        simp only [upd_other e]
        exact this
    · have : n ≠ m := by simp only at hn; omega
      simp only [upd_other this]
      exact h.fresh n hn
  | crash m hu hp =>
    have hlt : m < s.next := by
      rcases Nat.lt_or_ge m s.next with k | k
      · exact k
      · rw [h.fresh m k] at hp; cases hp
    refine ⟨fun n => ?_, fun n hn => ?_⟩
    · have := h.pc n
      rw [trace_append]
      by_cases e : n = m
      · subst e
        rw [hp] at this
        obtain ⟨c, l, ht, hpa⟩ := this
        rw [trace_one_own (n := n) (e := .crashed n) rfl, ht]
        simp only [upd_same]
        exact ⟨c, l, .inr ⟨rfl, hpa⟩⟩
      · rw [trace_one_other (Ne.symm e), List.append_nil]
        simp only [upd_other e]
        exact this
    · have : n ≠ m := by simp only at hn; omega
      simp only [upd_other this]
      exact h.fresh n hn
  | did m q k e a sh hu hp hx =>
    have hlt : m < s.next := by
      rcases Nat.lt_or_ge m s.next with k | k
      · exact k
      · rw [h.fresh m k] at hp; cases hp
    refine ⟨fun n => ?_, fun n hn => ?_⟩
    · have := h.pc n
      rw [trace_append]
      by_cases e : n = m
      · subst e
        rw [hp] at this
        obtain ⟨c, l, ht, hpa⟩ := this
        rw [trace_one_own (n := n) (e := .did n q a) rfl, ht]
        simp only [upd_same]
        exact ⟨c, l ++ [⟨q, a⟩], by rw [evs_append]; rfl, hpa.snoc a⟩
      · rw [trace_one_other (Ne.symm e), List.append_nil]
        simp only [upd_other e]
        exact this
    · have : n ≠ m := by simp only at hn; omega
      simp only [upd_other this]
      exact h.fresh n hn

theorem inv_run {as : List (Act S)} {s : State S} (hr : run (init S) as = some s) : Inv s := run_induct inv_init (fun _ _ => inv_step) hr

/-! ### What the history of a call looks like -/

/-- The events of one call in a history: what its program says. -/
def CallOk (n : Nat) (t : List S.Event) : Prop :=
  t = [] ∨ ∃ c l, (∃ p, t = .called n c :: evs n l ∧ Path (S.prog c) l p) ∨ (∃ r, t = .called n c :: evs n l ++ [.returned n r] ∧ Path (S.prog c) l (.ret r)) ∨
    (t = .called n c :: evs n l ++ [.crashed n] ∧ Path (S.prog c) l .crash)

theorem callOk {as : List (Act S)} {s : State S} (hr : run (init S) as = some s) (n : Nat) : CallOk n (trace n s.log) := by
  have := (inv_run hr).pc n
  revert this
  cases s.pc n with
  | idle => exact .inl
  | «at» p => rintro ⟨c, l, h⟩; exact .inr ⟨c, l, .inl ⟨p, h⟩⟩
  | done => rintro ⟨c, l, h | h⟩
            · exact .inr ⟨c, l, .inr (.inl h)⟩
            · exact .inr ⟨c, l, .inr (.inr h)⟩

theorem evs_did {n : Nat} {l : List (Op S.Q S.A)} {e : S.Event} (h : e ∈ evs n l) : ∃ o ∈ l, e = .did n o.1 o.2 := by
  obtain ⟨o, ho, rfl⟩ := List.mem_map.1 h; exact ⟨o, ho, rfl⟩

theorem mem_evs {n : Nat} {l : List (Op S.Q S.A)} {q : S.Q} {a : S.A q} : Ev.did n q a ∈ evs n l ↔ ⟨q, a⟩ ∈ l := by
  constructor
  · intro h
    obtain ⟨⟨q', a'⟩, ho, e⟩ := evs_did h
    cases e; exact ho
  · intro h; exact List.mem_map.2 ⟨_, h, rfl⟩

theorem evs_inj {n : Nat} {l r : List (Op S.Q S.A)} (h : evs n l = evs n r) : l = r := by
  refine List.map_inj_right ?_ |>.1 h
  rintro ⟨q, a⟩ ⟨q', a'⟩ e
  cases e; rfl

theorem path_prefix {p p' : Prog Q A R} {l r : List (Op Q A)} {o : Op Q A} (h : Path p (l ++ o :: r) p') : ∃ k, Path p l (.ask o.1 k) := by
  induction l generalizing p with
  | nil => cases h; exact ⟨_, .nil⟩
  | cons x l ih =>
    cases h with
    | cons h => obtain ⟨k, hk⟩ := ih h; exact ⟨k, .cons hk⟩

/-- Before an operation of call `n`: the call was started, and has done what its program does before that operation. -/
theorem did_path {as : List (Act S)} {s : State S} (hr : run (init S) as = some s) {l r : List S.Event} {n : Nat} {q : S.Q} {a : S.A q} (h : s.log = l ++ .did n q a :: r) :
    ∃ c pre k, .called n c ∈ l ∧ trace n l = .called n c :: evs n pre ∧ Path (S.prog c) pre (.ask q k) := by
  have ht : trace n s.log = trace n l ++ .did n q a :: trace n r := by
    rw [h, trace_append]; congr 1; simp [trace, Ev.cid]
  have key : ∀ c m (tl : List S.Event), (∀ q a, Ev.did n q a ∉ tl) → trace n s.log = .called n c :: evs n m ++ tl → (∃ p, Path (S.prog c) m p) →
      ∃ c pre k, .called n c ∈ l ∧ trace n l = .called n c :: evs n pre ∧ Path (S.prog c) pre (.ask q k) := by
    rintro c m tl hno hm ⟨p, hp⟩
    rw [ht] at hm
    cases hl : trace n l with
    | nil => rw [hl] at hm; simp at hm
    | cons x xs =>
      rw [hl] at hm
      simp only [List.cons_append, List.cons.injEq] at hm
      obtain ⟨rfl, hm⟩ := hm
      have hin : Ev.called n c ∈ l := mem_trace (n := n) (by rw [hl]; simp)
      rcases List.append_eq_append_iff.1 hm with ⟨u, h1, h2⟩ | ⟨u, h1, h2⟩
      · cases u with
        | nil => simp at h2; exact absurd (by rw [← h2]; simp) (hno q a)
        | cons y u =>
          simp only [List.cons_append, List.cons.injEq] at h2
          obtain ⟨rfl, h2⟩ := h2
          unfold evs at h1
          obtain ⟨m1, m2, rfl, e1, e2⟩ := List.map_eq_append_iff.1 h1
          obtain ⟨o, m3, rfl, e3, e4⟩ := List.map_eq_cons_iff.1 e2
          cases e3
          obtain ⟨k, hk⟩ := path_prefix hp
          exact ⟨c, m1, k, hin, by rw [← e1]; rfl, hk⟩
      · exact absurd (show Ev.did n q a ∈ tl by rw [h2]; simp) (hno q a)
  rcases callOk hr n with h0 | ⟨c, m, ⟨p, hm, hp⟩ | ⟨x, hm, hp⟩ | ⟨hm, hp⟩⟩
  · rw [h0] at ht; simp at ht
  · exact key c m [] (by simp) (by simpa using hm) ⟨p, hp⟩
  · exact key c m [.returned n x] (by simp) hm ⟨_, hp⟩
  · exact key c m [.crashed n] (by simp) hm ⟨_, hp⟩

/-- A call that has returned has done all of its program. -/
theorem returned_path {as : List (Act S)} {s : State S} (hr : run (init S) as = some s) {n : Nat} {x : S.R} (h : .returned n x ∈ s.log) :
    ∃ c ops, .called n c ∈ s.log ∧ trace n s.log = .called n c :: evs n ops ++ [.returned n x] ∧ Path (S.prog c) ops (.ret x) := by
  have hm : Ev.returned n x ∈ trace n s.log := in_trace h
  have hno : ∀ l, Ev.returned n x ∉ (evs n l : List S.Event) := fun l h => by obtain ⟨o, -, e⟩ := evs_did h; cases e
  rcases callOk hr n with h0 | ⟨c, l, ⟨p, ht, hp⟩ | ⟨y, ht, hp⟩ | ⟨ht, hp⟩⟩
  · rw [h0] at hm; cases hm
  · rw [ht] at hm; simp [hno] at hm
  · rw [ht] at hm; simp [hno] at hm; subst hm
    exact ⟨c, l, mem_trace (n := n) (by rw [ht]; simp), ht, hp⟩
  · rw [ht] at hm; simp [hno] at hm

theorem crashed_path {as : List (Act S)} {s : State S} (hr : run (init S) as = some s) {n : Nat} (h : .crashed n ∈ s.log) :
    ∃ c ops, .called n c ∈ s.log ∧ trace n s.log = .called n c :: evs n ops ++ [.crashed n] ∧ Path (S.prog c) ops .crash := by
  have hm : Ev.crashed n ∈ trace n s.log := in_trace h
  have hno : ∀ l, Ev.crashed n ∉ (evs n l : List S.Event) := fun l h => by obtain ⟨o, -, e⟩ := evs_did h; cases e
  rcases callOk hr n with h0 | ⟨c, l, ⟨p, ht, hp⟩ | ⟨y, ht, hp⟩ | ⟨ht, hp⟩⟩
  · rw [h0] at hm; cases hm
  · rw [ht] at hm; simp [hno] at hm
  · rw [ht] at hm; simp [hno] at hm
  · exact ⟨c, l, mem_trace (n := n) (by rw [ht]; simp), ht, hp⟩

/-- A call is started once. -/
theorem called_one {as : List (Act S)} {s : State S} (hr : run (init S) as = some s) {n : Nat} {c c' : S.Call} (h : .called n c ∈ s.log) (h' : .called n c' ∈ s.log) : c = c' := by
  have h := in_trace h
  have h' := in_trace h'
  simp only [Ev.cid] at h h'
  have hno : ∀ l c, Ev.called n c ∉ (evs n l : List S.Event) := fun l c h => by obtain ⟨o, -, e⟩ := evs_did h; cases e
  rcases callOk hr n with h0 | ⟨d, l, ⟨p, ht, hp⟩ | ⟨y, ht, hp⟩ | ⟨ht, hp⟩⟩
  · rw [h0] at h; cases h
  all_goals
    rw [ht] at h h'
    simp [hno] at h h'
    rw [h, h']

/-- What a returned call did, if one knows which call it is. -/
theorem returned_ops {as : List (Act S)} {s : State S} (hr : run (init S) as = some s) {n : Nat} {c : S.Call} {x : S.R} (hc : .called n c ∈ s.log) (h : .returned n x ∈ s.log) :
    ∃ ops, trace n s.log = .called n c :: evs n ops ++ [.returned n x] ∧ Path (S.prog c) ops (.ret x) := by
  obtain ⟨c', ops, h1, h2, h3⟩ := returned_path hr h
  obtain rfl := called_one hr hc h1
  exact ⟨ops, h2, h3⟩

theorem run_ub {as : List (Act S)} {s : State S} (hr : run (init S) as = some s) : s.ub = true ↔ ∃ n, .crashed n ∈ s.log := by
  refine run_induct (I := fun s : State S => s.ub = true ↔ ∃ n, Ev.crashed n ∈ s.log) (by simp [init]) ?_ hr
  intro s s' h hs
  cases hs with
  | call c hu => simpa [hu] using h
  | ret n r hu hp => simpa [hu] using h
  | crash n hu hp => simp
  | did n q k e a sh hu hp hx => simpa [hu] using h

/-- Every moment of a history is the end of a shorter run. -/
theorem run_prefix {as : List (Act S)} {s : State S} (hr : run (init S) as = some s) {l r : List S.Event} (h : s.log = l ++ r) : ∃ as' s', run (init S) as' = some s' ∧ s'.log = l := by
  have key : (∃ as, run (init S) as = some s) ∧ ∀ l r, s.log = l ++ r → ∃ as' s', run (init S) as' = some s' ∧ s'.log = l := by
    clear h r l
    induction as using snoc_induct generalizing s with
    | nil => cases hr; exact ⟨⟨[], rfl⟩, fun l r h => ⟨[], _, rfl, by simp [init] at h ⊢; exact h.1⟩⟩
    | snoc as a ih =>
      refine ⟨⟨_, hr⟩, fun l r h => ?_⟩
      rw [run_append] at hr
      cases h1 : run (init S) as with
      | none => rw [h1] at hr; cases hr
      | some s1 =>
        rw [h1] at hr
        simp only [Option.bind_some, run] at hr
        cases h2 : step s1 a with
        | none => rw [h2] at hr; cases hr
        | some s2 =>
          rw [h2] at hr; cases hr
          have hl : ∃ e, s.log = s1.log ++ [e] := by
            cases step_steps h2 with
            | call c => exact ⟨_, rfl⟩
            | ret n r => exact ⟨_, rfl⟩
            | crash n => exact ⟨_, rfl⟩
            | did n q k e a sh => exact ⟨_, rfl⟩
          obtain ⟨e, hl⟩ := hl
          cases r using snoc_induct with
          | nil => rw [List.append_nil] at h; exact ⟨as ++ [a], s, by rw [run_append, h1]; simp [run, h2], h⟩
          | snoc r x _ =>
            rw [hl, ← List.append_assoc] at h
            exact (ih h1).2 l r (List.append_inj_left' h rfl)
  exact key.2 l r h

/-- A call does nothing before it is made. -/
theorem after_call {as : List (Act S)} {s : State S} (hr : run (init S) as = some s) {l r : List S.Event} {n : Nat} {c : S.Call} (h : s.log = l ++ .called n c :: r) :
    trace n l = [] ∧ ∀ c', .called n c' ∉ r := by
  have ht : trace n s.log = trace n l ++ .called n c :: trace n r := by
    rw [h, trace_append]; congr 1; simp [trace, Ev.cid]
  have hno : ∀ l c, Ev.called n c ∉ (evs n l : List S.Event) := fun l c h => by obtain ⟨o, -, e⟩ := evs_did h; cases e
  have key : ∀ d tl, (∀ c, Ev.called n c ∉ tl) → trace n s.log = .called n d :: tl → trace n l = [] ∧ ∀ c', Ev.called n c' ∉ r := by
    intro d tl hn hm
    rw [ht] at hm
    cases hl : trace n l with
    | nil =>
      rw [hl] at hm
      simp only [List.nil_append, List.cons.injEq] at hm
      refine ⟨rfl, fun c' hc' => hn c' ?_⟩
      rw [← hm.2]; exact in_trace (e := .called n c') hc'
    | cons x xs =>
      rw [hl] at hm
      simp only [List.cons_append, List.cons.injEq] at hm
      exact absurd (by rw [← hm.2]; simp) (hn c)
  rcases callOk hr n with h0 | ⟨d, m, ⟨p, hm, hp⟩ | ⟨x, hm, hp⟩ | ⟨hm, hp⟩⟩
  · rw [h0] at ht; simp at ht
  · exact key d (evs n m) (hno m) hm
  · exact key d (evs n m ++ [.returned n x]) (by simp [hno]) (by simpa using hm)
  · exact key d (evs n m ++ [.crashed n]) (by simp [hno]) (by simpa using hm)

/-- What happens before a call is made happens before what the call does. -/
theorem before_call {as : List (Act S)} {s : State S} (hr : run (init S) as = some s) {l m r : List S.Event} {e e' : S.Event} {n : Nat} {c : S.Call} (h : s.log = l ++ e :: m ++ .called n c :: r)
    (hn : e'.cid = n) (hc : ∀ c, e' ≠ .called n c) {l' r' : List S.Event} (h' : s.log = l' ++ e' :: r') : ∃ y, l' = l ++ e :: y ∧ .called n c ∈ y := by
  rw [h] at h'
  rcases places h' with ⟨-, h1, -⟩ | ⟨y, rfl, -⟩ | ⟨y, h1, -⟩
  · exact absurd h1.symm (hc c)
  · exact ⟨m ++ .called n c :: y, by simp, by simp⟩
  · have := (after_call hr h).1
    rw [h1] at this
    have h2 : e' ∈ trace n (l' ++ e' :: y) := by have := in_trace (S := S) (e := e') (l := l' ++ e' :: y) (by simp); rwa [hn] at this
    rw [this] at h2; cases h2

/-- A call that has crashed does not return. -/
theorem crashed_returned {as : List (Act S)} {s : State S} (hr : run (init S) as = some s) {n : Nat} {x : S.R} (h : .crashed n ∈ s.log) (h' : .returned n x ∈ s.log) : False := by
  obtain ⟨c, ops, -, h1, -⟩ := crashed_path hr h
  have := in_trace h'
  simp only [Ev.cid] at this
  rw [h1] at this
  have hno : Ev.returned n x ∉ (evs n ops : List S.Event) := fun h => by obtain ⟨o, -, e⟩ := evs_did h; cases e
  simp [hno] at this

/-- A call does nothing after it has returned. -/
theorem after_return {as : List (Act S)} {s : State S} (hr : run (init S) as = some s) {l r : List S.Event} {n : Nat} {x : S.R} (h : s.log = l ++ .returned n x :: r) : trace n r = [] := by
  obtain ⟨c, ops, -, ht, -⟩ := returned_path hr (n := n) (x := x) (by rw [h]; simp)
  have hno : Ev.returned n x ∉ (evs n ops : List S.Event) := fun h => by obtain ⟨o, -, e⟩ := evs_did h; cases e
  have h1 : trace n (Ev.returned n x :: r) = Ev.returned n x :: trace n r := by simp [trace, Ev.cid]
  rw [h, trace_append, h1] at ht
  rcases places ht with ⟨-, -, h3⟩ | ⟨z, h3, -⟩ | ⟨z, -, h3⟩
  · exact h3
  · have : Ev.returned n x ∈ (Ev.called n c :: evs n ops : List S.Event) := by rw [h3]; simp
    simp [hno] at this
  · simp at h3

/-- Where an event of a call is in the history. -/
theorem trace_split {n : Nat} {l X Y : List S.Event} {e : S.Event} (h : trace n l = X ++ e :: Y) : ∃ l1 l2, l = l1 ++ e :: l2 ∧ trace n l1 = X ∧ trace n l2 = Y := by
  obtain ⟨a, b, rfl, h1, h2⟩ := List.filter_eq_append_iff.1 h
  obtain ⟨c, d, rfl, h3, h4, h5⟩ := List.filter_eq_cons_iff.1 h2
  refine ⟨a ++ c, d, by simp, ?_, h5⟩
  unfold trace
  rw [List.filter_append, h1]
  have : c.filter (·.cid == n) = [] := List.filter_eq_nil_iff.2 h3
  rw [this, List.append_nil]

end Maf.Calls
