import Verif.Lemmas.Calls
/-
Critical sections. A monitor follows the operations of one call. If it leaves its first state only with an operation that takes a lock, and returns to it with one that
releases the lock, then it may as well follow the operations of all calls together: between the two it sees those of the call that has the lock only.
-/
namespace Maf.Calls

/-- A monitor: `ok st o`: operation `o` is allowed in state `st`. -/
structure Mon (Q : Type) (A : Q → Type) where
  σ : Type
  free : σ
  step : σ → Op Q A → σ
  ok : σ → Op Q A → Prop
  /-- the operations that do not matter -/
  neutral : Op Q A → Prop

variable {Q : Type} {A : Q → Type} {R T : Type}

/-- From state `st`, the operations of the program are allowed, and when it returns `Post` holds. -/
def Mon.Keeps (M : Mon Q A) (st : M.σ) (Post : M.σ → R → Prop) : Prog Q A R → Prop
  | .ret r => Post st r
  | .crash => True
  | .ask q k => ∀ a, M.ok st ⟨q, a⟩ ∧ Mon.Keeps M (M.step st ⟨q, a⟩) Post (k a)

variable {M : Mon Q A}

@[simp] theorem keeps_ret {st : M.σ} {Post : M.σ → R → Prop} {r : R} : M.Keeps st Post (.ret r) ↔ Post st r := Iff.rfl
@[simp] theorem keeps_pure {st : M.σ} {Post : M.σ → R → Prop} {r : R} : M.Keeps st Post (pure r) ↔ Post st r := Iff.rfl
@[simp] theorem keeps_crash {st : M.σ} {Post : M.σ → R → Prop} : M.Keeps st Post .crash ↔ True := Iff.rfl
@[simp] theorem keeps_ask {st : M.σ} {Post : M.σ → R → Prop} {q : Q} {k : A q → Prog Q A R} :
    M.Keeps st Post (.ask q k) ↔ ∀ a, M.ok st ⟨q, a⟩ ∧ M.Keeps (M.step st ⟨q, a⟩) Post (k a) := Iff.rfl

theorem Mon.Keeps.bind {st : M.σ} {Post : M.σ → T → Prop} {p : Prog Q A R} {f : R → Prog Q A T} (h : M.Keeps st (fun st r => M.Keeps st Post (f r)) p) : M.Keeps st Post (p >>= f) := by
  induction p generalizing st with
  | ret r => exact h
  | crash => trivial
  | ask q k ih => exact fun a => ⟨(h a).1, ih a (h a).2⟩

theorem Mon.Keeps.mono {st : M.σ} {Post Post' : M.σ → R → Prop} {p : Prog Q A R} (h : M.Keeps st Post p) (hi : ∀ st r, Post st r → Post' st r) : M.Keeps st Post' p := by
  induction p generalizing st with
  | ret r => exact hi _ _ h
  | crash => trivial
  | ask q k ih => exact fun a => ⟨(h a).1, ih a (h a).2⟩

theorem Mon.Keeps.at {st : M.σ} {Post : M.σ → R → Prop} {p : Prog Q A R} (h : M.Keeps st Post p) {l : List (Op Q A)} {q : Q} {k : A q → Prog Q A R} (hp : Path p l (.ask q k)) (a : A q) :
    M.ok (l.foldl M.step st) ⟨q, a⟩ := by
  generalize hy : Prog.ask q k = y at hp
  induction hp generalizing st with
  | nil => subst hy; exact (h a).1
  | cons hp ih => exact ih (h _).2 hy

theorem Mon.Keeps.end {st : M.σ} {Post : M.σ → R → Prop} {p : Prog Q A R} (h : M.Keeps st Post p) {l : List (Op Q A)} {r : R} (hp : Path p l (.ret r)) : Post (l.foldl M.step st) r := by
  generalize hy : Prog.ret r = y at hp
  induction hp generalizing st with
  | nil => subst hy; exact h
  | cons hp ih => exact ih (h _).2 hy

variable {S : Sys}

/-- The operations in a history. -/
def allOps (l : List S.Event) : List (Op S.Q S.A) := l.filterMap fun | .did _ q a => some ⟨q, a⟩ | _ => none

theorem allOps_append (l r : List S.Event) : allOps (l ++ r) = allOps l ++ allOps r := by simp [allOps]
theorem allOps_evs (n : Nat) (l : List (Op S.Q S.A)) : allOps (evs n l : List S.Event) = l := by
  induction l with
  | nil => rfl
  | cons x l ih => simp only [allOps, evs, List.map_cons, List.filterMap_cons] at ih ⊢; rw [ih]

variable (M : Mon S.Q S.A)

/-- The state of the monitor that follows all operations. -/
def Mon.all (l : List S.Event) : M.σ := (allOps l).foldl M.step M.free
/-- The state of the monitor that follows those of call `n`. -/
def Mon.of (n : Nat) (l : List S.Event) : M.σ := (allOps (trace n l)).foldl M.step M.free

/-- `lock`: who has the lock, if any. -/
structure Mon.Locked (lock : List S.Event → Option Nat) : Prop where
  nil : lock [] = none
  skip : ∀ l e, (∀ n q a, e ≠ .did n q a) → lock (l ++ [e]) = lock l
  idle : ∀ l n q a, M.neutral ⟨q, a⟩ → (∀ st, M.step st ⟨q, a⟩ = st) ∧ lock (l ++ [.did n q a]) = lock l
  take : ∀ l n q a, ¬M.neutral ⟨q, a⟩ → M.ok M.free ⟨q, a⟩ → M.step M.free ⟨q, a⟩ ≠ M.free ∧ lock (l ++ [.did n q a]) = some n
  keep : ∀ l n q a st, ¬M.neutral ⟨q, a⟩ → st ≠ M.free → M.ok st ⟨q, a⟩ →
    (M.step st ⟨q, a⟩ ≠ M.free ∧ lock (l ++ [.did n q a]) = lock l) ∨ (M.step st ⟨q, a⟩ = M.free ∧ lock (l ++ [.did n q a]) = none)

variable {M}

theorem Mon.all_one (l : List S.Event) (n : Nat) (q : S.Q) (a : S.A q) : M.all (l ++ [.did n q a]) = M.step (M.all l) ⟨q, a⟩ := by
  unfold Mon.all; rw [allOps_append, List.foldl_append]; rfl
theorem Mon.all_skip (l : List S.Event) (e : S.Event) (h : ∀ n q a, e ≠ .did n q a) : M.all (l ++ [e]) = M.all l := by
  unfold Mon.all; rw [allOps_append, List.foldl_append]
  cases e with
  | did n q a => exact absurd rfl (h n q a)
  | _ => rfl
theorem Mon.of_one (l : List S.Event) (n : Nat) (q : S.Q) (a : S.A q) : M.of n (l ++ [.did n q a]) = M.step (M.of n l) ⟨q, a⟩ := by
  unfold Mon.of; rw [trace_append, trace_one_own (n := n) (e := .did n q a) rfl, allOps_append, List.foldl_append]; rfl
theorem Mon.of_other (l : List S.Event) (m : Nat) (e : S.Event) (h : e.cid ≠ m) : M.of m (l ++ [e]) = M.of m l := by
  unfold Mon.of; rw [trace_append, trace_one_other h, List.append_nil]
theorem Mon.of_skip (l : List S.Event) (m : Nat) (e : S.Event) (h : ∀ n q a, e ≠ .did n q a) : M.of m (l ++ [e]) = M.of m l := by
  by_cases hm : e.cid = m
  · unfold Mon.of; rw [trace_append, trace_one_own hm, allOps_append, List.foldl_append]
    cases e with
    | did n q a => exact absurd rfl (h n q a)
    | _ => rfl
  · exact of_other l m e hm

/-- The call that has the lock is where the common monitor is; the others are outside. -/
structure Mon.Sync (M : Mon S.Q S.A) (lock : List S.Event → Option Nat) (l : List S.Event) : Prop where
  out : lock l = none → M.all l = M.free
  has : ∀ n, lock l = some n → M.all l = M.of n l ∧ M.of n l ≠ M.free
  others : ∀ n, lock l ≠ some n → M.of n l = M.free

theorem Mon.of_ok {as : List (Act S)} {s : State S} (hr : run (init S) as = some s) {Post : S.Call → M.σ → S.R → Prop} (hp : ∀ c, M.Keeps M.free (Post c) (S.prog c))
    {l r : List S.Event} {n : Nat} {q : S.Q} {a : S.A q} (h : s.log = l ++ .did n q a :: r) : M.ok (M.of n l) ⟨q, a⟩ := by
  obtain ⟨c, pre, k, -, ht, hk⟩ := did_path hr h
  have := (hp c).at hk a
  unfold Mon.of
  rw [ht]
  have h1 : allOps (Ev.called n c :: evs n pre : List S.Event) = pre := by
    have := allOps_evs n pre
    simpa [allOps] using this
  rw [h1]; exact this

theorem Mon.Sync.skip {lock : List S.Event → Option Nat} (hl : M.Locked lock) {l : List S.Event} {e : S.Event} (he : ∀ n q a, e ≠ .did n q a) (ih : M.Sync lock l) : M.Sync lock (l ++ [e]) := by
  have h2 := hl.skip l e he
  refine ⟨fun h => ?_, fun m h => ?_, fun m h => ?_⟩
  · rw [all_skip _ _ he]; exact ih.out (h2 ▸ h)
  · rw [all_skip _ _ he, of_skip _ _ _ he]; exact ih.has m (h2 ▸ h)
  · rw [of_skip _ _ _ he]; exact ih.others m (h2 ▸ h)

theorem Mon.sync {lock : List S.Event → Option Nat} (hl : M.Locked lock) {Post : S.Call → M.σ → S.R → Prop} (hp : ∀ c, M.Keeps M.free (Post c) (S.prog c))
    (ht : ∀ (as : List (Act S)) s l r n q a, run (init S) as = some s → s.log = l ++ .did n q a :: r → ¬M.neutral ⟨q, a⟩ → M.ok M.free ⟨q, a⟩ → M.of n l = M.free → lock l = none)
    {as : List (Act S)} {s : State S} (hr : run (init S) as = some s) {l r : List S.Event} (h : s.log = l ++ r) : M.Sync lock l := by
  revert r
  refine snoc_induct (motive := fun l => ∀ {r}, s.log = l ++ r → M.Sync lock l) ?_ ?_ l
  · intro r _
    exact ⟨fun _ => rfl, fun n h => (by rw [hl.nil] at h; cases h), fun _ _ => rfl⟩
  · intro l e ih r h
    have ih := ih (r := e :: r) (by simpa using h)
    cases e with
    | did n q a =>
      have hd : s.log = l ++ .did n q a :: r := by simpa using h
      have hok := of_ok hr hp hd
      by_cases hn : M.neutral ⟨q, a⟩
      · obtain ⟨h1, h2⟩ := hl.idle l n q a hn
        have ho : ∀ m, M.of m (l ++ [.did n q a]) = M.of m l := by
          intro m
          by_cases hm : n = m
          · subst hm; rw [of_one, h1]
          · exact of_other _ _ _ hm
        refine ⟨fun h => ?_, fun m h => ?_, fun m h => ?_⟩
        · rw [all_one, h1]; exact ih.out (h2 ▸ h)
        · rw [all_one, h1, ho]; exact ih.has m (h2 ▸ h)
        · rw [ho]; exact ih.others m (h2 ▸ h)
      · by_cases hf : M.of n l = M.free
        · have hok' := hf ▸ hok
          have h0 := ht as s l r n q a hr hd hn hok' hf
          obtain ⟨h1, h2⟩ := hl.take l n q a hn hok'
          refine ⟨fun h => (by rw [h2] at h; cases h), fun m h => ?_, fun m h => ?_⟩
          · rw [h2] at h; cases h
            rw [all_one, of_one, ih.out h0, hf]; exact ⟨rfl, h1⟩
          · rw [h2] at h
            rw [of_other _ _ _ (fun e => h (by simpa [Ev.cid] using e))]
            exact ih.others m (by simp [h0])
        · have hlk : lock l = some n := by
            refine Classical.byContradiction fun h => hf (ih.others n h)
          have hal := (ih.has n hlk).1
          rcases hl.keep l n q a _ hn hf hok with ⟨h1, h2⟩ | ⟨h1, h2⟩
          · refine ⟨fun h => (by rw [h2, hlk] at h; cases h), fun m h => ?_, fun m h => ?_⟩
            · rw [h2, hlk] at h; cases h
              rw [all_one, of_one, hal]; exact ⟨rfl, h1⟩
            · rw [h2, hlk] at h
              rw [of_other _ _ _ (fun e => h (by simpa [Ev.cid] using e))]
              exact ih.others m (by rw [hlk]; exact h)
          · refine ⟨fun h => (by rw [all_one, hal, h1]), fun m h => (by rw [h2] at h; cases h), fun m h => ?_⟩
            by_cases hm : n = m
            · subst hm; rw [of_one, h1]
            · rw [of_other l m (.did n q a) hm]
              exact ih.others m (by rw [hlk]; simpa using hm)
    | called n c => exact ih.skip hl (by simp)
    | returned n c => exact ih.skip hl (by simp)
    | crashed n => exact ih.skip hl (by simp)

/-- Every operation that matters is one the common monitor allows. -/
theorem Mon.all_ok {lock : List S.Event → Option Nat} (hl : M.Locked lock) {Post : S.Call → M.σ → S.R → Prop} (hp : ∀ c, M.Keeps M.free (Post c) (S.prog c))
    (ht : ∀ (as : List (Act S)) s l r n q a, run (init S) as = some s → s.log = l ++ .did n q a :: r → ¬M.neutral ⟨q, a⟩ → M.ok M.free ⟨q, a⟩ → M.of n l = M.free → lock l = none)
    {as : List (Act S)} {s : State S} (hr : run (init S) as = some s) {l r : List S.Event} {n : Nat} {q : S.Q} {a : S.A q} (h : s.log = l ++ .did n q a :: r) (hn : ¬M.neutral ⟨q, a⟩) :
    M.ok (M.all l) ⟨q, a⟩ ∧ M.all l = M.of n l := by
  have hs := sync hl hp ht hr h
  have hok := of_ok hr hp h
  by_cases hf : M.of n l = M.free
  · have h0 := ht as s l r n q a hr h hn (hf ▸ hok) hf
    rw [hs.out h0, hf]; exact ⟨hf ▸ hok, rfl⟩
  · have hlk : lock l = some n := Classical.byContradiction fun h => hf (hs.others n h)
    rw [(hs.has n hlk).1]; exact ⟨hok, rfl⟩

/-! ### Calls that are made one after the other -/

/-- A call with `Notif` is made only when all such calls made before have returned. -/
def Serial (Notif : S.Call → Prop) (l : List S.Event) : Prop :=
  ∀ l1 n c l2, l = l1 ++ .called n c :: l2 → Notif c → ∀ m d, .called m d ∈ l1 → Notif d → ∃ x, .returned m x ∈ l1

theorem Serial.left {Notif : S.Call → Prop} {l r : List S.Event} (h : Serial Notif (l ++ r)) : Serial Notif l :=
  fun l1 n c l2 hl => h l1 n c (l2 ++ r) (by rw [hl]; simp)

/-- Call `n` has been made and has not returned. -/
def Active (Notif : S.Call → Prop) (n : Nat) (l : List S.Event) : Prop := ∃ c, .called n c ∈ l ∧ Notif c ∧ ∀ x, .returned n x ∉ l

theorem Serial.one {Notif : S.Call → Prop} {l : List S.Event} (h : Serial Notif l) {n m : Nat} (hn : Active Notif n l) (hm : Active Notif m l) : n = m := by
  obtain ⟨c, hc, hN, hr⟩ := hn
  obtain ⟨d, hd, hN', hr'⟩ := hm
  obtain ⟨a, b, rfl⟩ := List.append_of_mem hc
  obtain ⟨a', b', he⟩ := List.append_of_mem hd
  rcases places he with ⟨-, e, -⟩ | ⟨z, rfl, -⟩ | ⟨z, rfl, -⟩
  · cases e; rfl
  · obtain ⟨x, hx⟩ := h _ m d b' he hN' n c (by simp) hN
    exact absurd (by rw [he]; exact List.mem_append_left _ hx) (hr x)
  · obtain ⟨x, hx⟩ := h _ n c b rfl hN m d (by simp) hN'
    exact absurd (List.mem_append_left _ hx) (hr' x)

/-- The monitor that allows what does not matter only. -/
def Mon.still (M : Mon Q A) : Mon Q A := { M with ok := fun _ o => M.neutral o }

structure Mon.InTurn (M : Mon S.Q S.A) (Notif : S.Call → Prop) (l : List S.Event) : Prop where
  act : ∀ n, Active Notif n l → M.all l = M.of n l
  out : (∀ n, ¬Active Notif n l) → M.all l = M.free

theorem active_skip {Notif : S.Call → Prop} {l : List S.Event} {e : S.Event} (h1 : ∀ n c, e = .called n c → ¬Notif c) (h2 : ∀ n x, e ≠ .returned n x) (n : Nat) : Active Notif n (l ++ [e]) ↔ Active Notif n l := by
  constructor
  · rintro ⟨c, hc, hN, hr⟩
    refine ⟨c, ?_, hN, fun x hx => hr x (by simp [hx])⟩
    rcases List.mem_append.1 hc with hc | hc
    · exact hc
    · simp at hc; exact absurd hN (h1 n c hc.symm)
  · rintro ⟨c, hc, hN, hr⟩
    refine ⟨c, by simp [hc], hN, fun x hx => ?_⟩
    rcases List.mem_append.1 hx with hx | hx
    · exact hr x hx
    · simp at hx; exact h2 n x hx.symm

theorem Mon.of_still {as : List (Act S)} {s : State S} (hr : run (init S) as = some s) {Notif : S.Call → Prop} (hn : ∀ n c, .called n c ∈ s.log → ¬Notif c → M.still.Keeps M.free (fun _ _ => True) (S.prog c))
    {l r : List S.Event} {n : Nat} {q : S.Q} {a : S.A q} {c : S.Call} (h : s.log = l ++ .did n q a :: r) (hc : .called n c ∈ l) (hN : ¬Notif c) : M.neutral ⟨q, a⟩ := by
  obtain ⟨c', pre, k, hc', ht, hk⟩ := did_path hr h
  obtain rfl := called_one hr (c := c) (c' := c') (by rw [h]; exact List.mem_append_left _ hc) (by rw [h]; exact List.mem_append_left _ hc')
  exact (hn n c (by rw [h]; exact List.mem_append_left _ hc) hN).at hk a

theorem did_active {as : List (Act S)} {s : State S} (hr : run (init S) as = some s) {Notif : S.Call → Prop} {l r : List S.Event} {n : Nat} {q : S.Q} {a : S.A q} {c : S.Call}
    (h : s.log = l ++ .did n q a :: r) (hc : .called n c ∈ l) (hN : Notif c) : Active Notif n l := by
  refine ⟨c, hc, hN, fun x hx => ?_⟩
  obtain ⟨a', b', rfl⟩ := List.append_of_mem hx
  have h1 := after_return hr (l := a') (n := n) (x := x) (r := b' ++ .did n q a :: r) (by rw [h]; simp)
  have h2 : Ev.did n q a ∈ trace n (b' ++ .did n q a :: r) := in_trace (S := S) (e := .did n q a) (by simp)
  rw [h1] at h2; cases h2

theorem Mon.inTurn {Notif : S.Call → Prop} {as : List (Act S)} {s : State S} (hr : run (init S) as = some s) (hi : ∀ o st, M.neutral o → M.step st o = st) (hp : ∀ n c, .called n c ∈ s.log → Notif c → M.Keeps M.free (fun st _ => st = M.free) (S.prog c))
    (hn : ∀ n c, .called n c ∈ s.log → ¬Notif c → M.still.Keeps M.free (fun _ _ => True) (S.prog c)) {l r : List S.Event} (h : s.log = l ++ r)
    (hs : Serial Notif l) : M.InTurn Notif l := by
  revert r
  refine snoc_induct (motive := fun l => Serial Notif l → ∀ {r}, s.log = l ++ r → M.InTurn Notif l) ?_ ?_ l hs
  · intro _ r _
    exact ⟨fun n ⟨c, hc, _⟩ => (by cases hc), fun _ => rfl⟩
  · intro l e ih hs r h
    have ih := ih hs.left (r := e :: r) (by simpa using h)
    have h' : s.log = l ++ e :: r := by simpa using h
    cases e with
    | called n c =>
      by_cases hN : Notif c
      · have hall := hs l n c [] rfl hN
        have hno : ∀ m, ¬Active Notif m l := by
          rintro m ⟨d, hd, hN', hr'⟩
          obtain ⟨x, hx⟩ := hall m d hd hN'
          exact hr' x hx
        have hnew : M.of n l = M.free := by unfold Mon.of; rw [(after_call hr h').1]; rfl
        refine ⟨fun m hm => ?_, fun hf => ?_⟩
        · rw [all_skip _ _ (by simp), of_skip _ _ _ (by simp), ih.out hno]
          by_cases hmn : m = n
          · subst hmn; exact hnew.symm
          · exfalso
            obtain ⟨d, hd, hN', hr'⟩ := hm
            refine hno m ⟨d, ?_, hN', fun x hx => hr' x (by simp [hx])⟩
            rcases List.mem_append.1 hd with hd | hd
            · exact hd
            · simp at hd; exact absurd hd.1 hmn
        · rw [all_skip _ _ (by simp)]; exact ih.out hno
      · have ha := active_skip (l := l) (e := .called n c) (Notif := Notif) (fun k d e => by cases e; exact hN) (by simp)
        refine ⟨fun m hm => ?_, fun hf => ?_⟩
        · rw [all_skip _ _ (by simp), of_skip _ _ _ (by simp)]; exact ih.act m ((ha m).1 hm)
        · rw [all_skip _ _ (by simp)]; exact ih.out fun m hm => hf m ((ha m).2 hm)
    | did n q a =>
      have ha := active_skip (l := l) (e := .did n q a) (Notif := Notif) (by simp) (by simp)
      obtain ⟨c, pre, k, hc, ht, hk⟩ := did_path hr h'
      by_cases hN : Notif c
      · have hact := did_active hr h' hc hN
        refine ⟨fun m hm => ?_, fun hf => absurd ((ha n).2 hact) (hf n)⟩
        obtain rfl := hs.left.one hact ((ha m).1 hm)
        rw [all_one, of_one, ih.act n hact]
      · have hneu := of_still hr hn h' hc hN
        have ho : ∀ m, M.of m (l ++ [.did n q a]) = M.of m l := by
          intro m
          by_cases hm : n = m
          · subst hm; rw [of_one, hi _ _ hneu]
          · exact of_other _ _ _ hm
        refine ⟨fun m hm => ?_, fun hf => ?_⟩
        · rw [all_one, hi _ _ hneu, ho]; exact ih.act m ((ha m).1 hm)
        · rw [all_one, hi _ _ hneu]; exact ih.out fun m hm => hf m ((ha m).2 hm)
    | returned n x =>
      obtain ⟨as', s', hr', hl'⟩ := run_prefix hr (l := l ++ [.returned n x]) (r := r) h
      obtain ⟨c, ops, hc, ht, hk⟩ := returned_path hr' (n := n) (x := x) (by rw [hl']; simp)
      rw [hl'] at hc ht
      have hc : Ev.called n c ∈ l := by simpa using hc
      have ht : trace n l = .called n c :: evs n ops := by
        rw [trace_append, trace_one_own (n := n) (e := .returned n x) rfl] at ht
        exact List.append_inj_left' ht rfl
      by_cases hN : Notif c
      · have hof : M.of n l = M.free := by
          unfold Mon.of; rw [ht]
          have h1 : allOps (Ev.called n c :: evs n ops : List S.Event) = ops := by
            have := allOps_evs (S := S) n ops
            simpa [allOps] using this
          rw [h1]; exact (hp n c (by rw [h']; exact List.mem_append_left _ hc) hN).end hk
        have hact : Active Notif n l := by
          refine ⟨c, hc, hN, fun y hy => ?_⟩
          have : Ev.returned n y ∈ trace n l := in_trace hy
          rw [ht] at this
          rcases List.mem_cons.1 this with this | this
          · cases this
          · obtain ⟨o, -, e⟩ := evs_did this; cases e
        have hall : M.all (l ++ [.returned n x]) = M.free := by rw [all_skip _ _ (by simp), ih.act n hact, hof]
        refine ⟨fun m hm => ?_, fun _ => hall⟩
        exfalso
        obtain ⟨d, hd, hN', hr2⟩ := hm
        have hm' : Active Notif m l := ⟨d, by simpa using hd, hN', fun y hy => hr2 y (by simp [hy])⟩
        obtain rfl := hs.left.one hact hm'
        exact hr2 x (by simp)
      · have ha : ∀ m, Active Notif m (l ++ [.returned n x]) ↔ Active Notif m l := by
          intro m
          constructor
          · rintro ⟨d, hd, hN', hr2⟩
            exact ⟨d, by simpa using hd, hN', fun y hy => hr2 y (by simp [hy])⟩
          · rintro ⟨d, hd, hN', hr2⟩
            refine ⟨d, by simp [hd], hN', fun y hy => ?_⟩
            rcases List.mem_append.1 hy with hy | hy
            · exact hr2 y hy
            · simp at hy
              rw [hy.1] at hd
              have e := called_one hr (n := n) (c := c) (c' := d) (by rw [h]; simp [hc]) (by rw [h]; simp [hd])
              exact hN (e ▸ hN')
        refine ⟨fun m hm => ?_, fun hf => ?_⟩
        · rw [all_skip _ _ (by simp), of_skip _ _ _ (by simp)]; exact ih.act m ((ha m).1 hm)
        · rw [all_skip _ _ (by simp)]; exact ih.out fun m hm => hf m ((ha m).2 hm)
    | crashed n =>
      have ha := active_skip (l := l) (e := .crashed n) (Notif := Notif) (by simp) (by simp)
      refine ⟨fun m hm => ?_, fun hf => ?_⟩
      · rw [all_skip _ _ (by simp), of_skip _ _ _ (by simp)]; exact ih.act m ((ha m).1 hm)
      · rw [all_skip _ _ (by simp)]; exact ih.out fun m hm => hf m ((ha m).2 hm)

/-- Every operation that matters is one the common monitor allows. -/
theorem Mon.turn_ok {Notif : S.Call → Prop} {as : List (Act S)} {s : State S} (hr : run (init S) as = some s) (hi : ∀ o st, M.neutral o → M.step st o = st) (hp : ∀ n c, .called n c ∈ s.log → Notif c → M.Keeps M.free (fun st _ => st = M.free) (S.prog c))
    (hn : ∀ n c, .called n c ∈ s.log → ¬Notif c → M.still.Keeps M.free (fun _ _ => True) (S.prog c)) {l r : List S.Event} {n : Nat} {q : S.Q} {a : S.A q}
    (h : s.log = l ++ .did n q a :: r) (hs : Serial Notif l) (hq : ¬M.neutral ⟨q, a⟩) : M.ok (M.all l) ⟨q, a⟩ := by
  obtain ⟨c, pre, k, hc, ht, hk⟩ := did_path hr h
  by_cases hN : Notif c
  · rw [(inTurn hr hi hp hn h hs).act n (did_active hr h hc hN)]
    unfold Mon.of; rw [ht]
    have h1 : allOps (Ev.called n c :: evs n pre : List S.Event) = pre := by
      have := allOps_evs (S := S) n pre
      simpa [allOps] using this
    rw [h1]; exact (hp n c (by rw [h]; exact List.mem_append_left _ hc) hN).at hk a
  · exact absurd (of_still hr hn h hc hN) hq

end Maf.Calls
