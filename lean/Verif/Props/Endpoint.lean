import Verif.Model.Endpoint
import Verif.Lemmas.Hist
/-
C77: what is sent to an address reaches the receiver that was given this address.
-/
namespace Maf.Ends

open Maf.Addr (Address)

/-! ### Specification -/

/-- Receiver `i` of process `pid` was given address `a` with success, and the process has not exited since. -/
def Live (l : List Ev) (i pid : Nat) (a : Address) (of : Option Address) : Prop := ∃ l1 l2, l = l1 ++ .inited i pid a of true :: l2 ∧ .exited pid ∉ l2

/-- The log of some run. -/
def Log (l : List Ev) : Prop := ∃ as s, run init as = some s ∧ s.log = l

/-- A name without zero bytes. -/
def Plain (n : List Nat) : Prop := 0 ∉ n

/-- A name that does not end with a digit. -/
def Undigit (n : List Nat) : Prop := ∀ d, n.getLast? = some d → ¬ (48 ≤ d ∧ d ≤ 57)

/-! ### Names -/

theorem cstr_plain {p : List Nat} (h : Plain p) : cstr p = p := by
  unfold cstr
  induction p with
  | nil => rfl
  | cons a p ih =>
    have ha : a ≠ 0 := fun hc => h (by simp [hc])
    simp only [List.takeWhile_cons, ha, ne_eq, not_false_eq_true, decide_true, if_true]
    rw [ih fun hc => h (by simp [hc])]

theorem cstr_no_zero (p : List Nat) : 0 ∉ cstr p := by
  unfold cstr; intro h
  induction p with
  | nil => simp at h
  | cons a p ih =>
    simp only [List.takeWhile_cons] at h
    split at h
    · rename_i ha
      rcases List.mem_cons.1 h with h | h
      · subst h; simp at ha
      · exact ih h
    · simp at h

theorem cstr_le (p : List Nat) : (cstr p).length ≤ p.length := (List.takeWhile_sublist _).length_le

theorem takeWhile_zeros (q : List Nat) (h : 0 ∉ q) (k : Nat) : (q ++ List.replicate k 0).takeWhile (· ≠ 0) = q := by
  induction q with
  | nil => cases k <;> simp [List.replicate_succ]
  | cons a q ih =>
    have ha : a ≠ 0 := fun hc => h (by simp [hc])
    simp only [List.cons_append, List.takeWhile_cons, ha, ne_eq, not_false_eq_true, decide_true, if_true]
    rw [ih fun hc => h (by simp [hc])]

/-- Two names are the same socket iff they agree up to the first zero byte. -/
theorem sockName_eq {p q n m : List Nat} (hp : sockName p = some n) (hq : sockName q = some m) : n = m ↔ cstr p = cstr q := by
  unfold sockName at hp hq
  split at hp <;> cases hp
  split at hq <;> cases hq
  constructor
  · intro h
    have h := List.tail_eq_of_cons_eq h
    have h1 := congrArg (List.takeWhile (· ≠ 0)) h
    rw [takeWhile_zeros _ (cstr_no_zero p), takeWhile_zeros _ (cstr_no_zero q)] at h1
    exact h1
  · intro h; rw [h]

theorem sockName_some {p : List Nat} : (∃ n, sockName p = some n) ↔ p.length ≤ 107 := by
  unfold sockName pathSize
  constructor
  · rintro ⟨n, h⟩; split at h
    · omega
    · cases h
  · intro h; exact ⟨_, if_pos (by omega)⟩

theorem valid_iff {p : List Nat} : validPath p = true ↔ p.length ≤ 107 := by
  simp only [validPath, pathSize]
  exact ⟨fun h => by have := of_decide_eq_true h; omega, fun h => decide_eq_true (by omega)⟩

/-! ### Invariant -/

/-- What every event of a log obeys. -/
def EvOk (l : List Ev) : Ev → Prop
  | .inited i pid a of ok => (∀ q b o k, .inited i q b o k ∉ l) ∧ (∀ sv, of = some sv → a = clientAddr sv pid) ∧ (ok = true ↔ a.name.length ≤ 107 ∧ ∀ j q b o, Live l j q b o → cstr b.name ≠ cstr a.name)
  | .sent a (some i) => a.name.length ≤ 107 ∧ ∃ pid b o, Live l i pid b o ∧ cstr b.name = cstr a.name
  | .sent a none => a.name.length ≤ 107 → ∀ j q b o, Live l j q b o → cstr b.name ≠ cstr a.name
  | .looked a t => a.name.length ≤ 107 ∧ (t = true ↔ ∃ j q b o, Live l j q b o ∧ cstr b.name = cstr a.name)
  | .crashed => False
  | _ => True

theorem live_snoc {l : List Ev} {e : Ev} {i p : Nat} {a : Address} {o : Option Address} :
    Live (l ++ [e]) i p a o ↔ (Live l i p a o ∧ e ≠ .exited p) ∨ e = .inited i p a o true := by
  constructor
  · rintro ⟨l1, l2, h, hn⟩
    rcases List.eq_nil_or_concat l2 with rfl | ⟨l3, x, rfl⟩
    · obtain ⟨-, h2⟩ := List.append_inj' h rfl; cases h2; exact .inr rfl
    · have h' : l ++ [e] = (l1 ++ .inited i p a o true :: l3) ++ [x] := by rw [h]; simp
      obtain ⟨h1, h2⟩ := List.append_inj' h' rfl
      cases h2
      exact .inl ⟨⟨l1, l3, h1, fun hc => hn (by simp [hc])⟩, fun hc => hn (by simp [hc])⟩
  · rintro (⟨⟨l1, l2, rfl, hn⟩, he⟩ | rfl)
    · exact ⟨l1, l2 ++ [e], by simp, fun hc => (List.mem_append.1 hc).elim hn fun hc => he (List.mem_singleton.1 hc).symm⟩
    · exact ⟨l, [], by simp, by simp⟩

theorem Live.mem {l : List Ev} {i p : Nat} {a : Address} {o : Option Address} (h : Live l i p a o) : .inited i p a o true ∈ l := by
  obtain ⟨l1, l2, rfl, -⟩ := h; simp

structure Inv (s : State) : Prop where
  bound : ∀ n i p, (n, i, p) ∈ s.bound ↔ ∃ a o, Live s.log i p a o ∧ sockName a.name = some n
  one : s.bound.Pairwise fun b c => b.1 ≠ c.1
  ids : ∀ i p a o k, .inited i p a o k ∈ s.log → i < s.next
  clients : ∀ a ∈ s.clients, a.name.length ≤ 107
  hist : Hist EvOk s.log

theorem inv_init : Inv init := by
  refine ⟨?_, ?_, ?_, ?_, Hist.nil⟩ <;> simp [init, Live]

theorem owner_some {s : State} (h : Inv s) {n : List Nat} {i : Nat} (ho : owner s n = some i) : ∃ p a o, Live s.log i p a o ∧ sockName a.name = some n := by
  unfold owner at ho
  cases hf : s.bound.find? (fun b => b.1 == n) with
  | none => rw [hf] at ho; cases ho
  | some b =>
    rw [hf] at ho; cases ho
    have h1 := List.mem_of_find?_eq_some hf
    have h2 : b.1 = n := by simpa using List.find?_some hf
    obtain ⟨a, o, h3⟩ := (h.bound b.1 b.2.1 b.2.2).1 h1
    exact ⟨b.2.2, a, o, h2 ▸ h3⟩

theorem owner_none {s : State} (h : Inv s) {n : List Nat} (ho : owner s n = none) {i p : Nat} {a : Address} {o : Option Address} (hl : Live s.log i p a o) : sockName a.name ≠ some n := by
  unfold owner at ho
  intro hc
  have h1 := (h.bound n i p).2 ⟨a, o, hl, hc⟩
  have h2 : s.bound.find? (fun b => b.1 == n) = none := by simpa using ho
  have := List.find?_eq_none.1 h2 _ h1
  simp at this

theorem live_short {l : List Ev} (h : Hist EvOk l) {i p : Nat} {a : Address} {o : Option Address} (hl : Live l i p a o) : a.name.length ≤ 107 := by
  obtain ⟨l1, l2, rfl, -⟩ := hl
  exact ((h.all l1 _ l2 rfl).2.2.1 rfl).1

/-- An event that neither gives an address nor ends a process. -/
theorem inv_note {s : State} {e : Ev} (h : Inv s) (h1 : ∀ i p a o k, e ≠ .inited i p a o k) (h2 : ∀ p, e ≠ .exited p) (he : EvOk s.log e) : Inv { s with log := s.log ++ [e] } := by
  have hl : ∀ i p a o, Live (s.log ++ [e]) i p a o ↔ Live s.log i p a o := fun i p a o => by
    rw [live_snoc]; exact ⟨fun h => h.elim And.left fun hc => absurd hc (h1 i p a o true), fun h => .inl ⟨h, h2 p⟩⟩
  refine ⟨fun n i p => ?_, h.one, fun i p a o k hm => ?_, h.clients, h.hist.one he⟩
  · simp only [hl]; exact h.bound n i p
  · rcases List.mem_append.1 hm with hm | hm
    · exact h.ids i p a o k hm
    · exact absurd (by simpa using hm) (Ne.symm (h1 i p a o k))

theorem inv_failed {s : State} (h : Inv s) {pid : Nat} {a : Address} {of : Option Address} (hof : ∀ sv, of = some sv → a = clientAddr sv pid) (hf : a.name.length ≤ 107 → ∃ j q b o, Live s.log j q b o ∧ cstr b.name = cstr a.name) :
    Inv { s with next := s.next + 1, log := s.log ++ [.inited s.next pid a of false] } := by
  have hl : ∀ i p a' o, Live (s.log ++ [.inited s.next pid a of false]) i p a' o ↔ Live s.log i p a' o := fun i p a' o => by
    rw [live_snoc]; simp
  refine ⟨fun n i p => ?_, h.one, fun i p a o k hm => ?_, h.clients, h.hist.one ⟨fun q b o k hm => absurd (h.ids _ _ _ _ _ hm) (Nat.lt_irrefl _), hof, ?_⟩⟩
  · simp only [hl]; exact h.bound n i p
  · rcases List.mem_append.1 hm with hm | hm
    · exact Nat.lt_succ_of_lt (h.ids i p a o k hm)
    · simp at hm; rw [hm.1]; exact Nat.lt_succ_self _
  · refine ⟨(fun hc => by cases hc), fun ⟨h1, h2⟩ => ?_⟩
    obtain ⟨j, q, b, o, h3, h4⟩ := hf h1
    exact absurd h4 (h2 j q b o h3)

theorem inv_initRcv {s : State} (h : Inv s) (pid : Nat) (a : Address) (of : Option Address) (hof : ∀ sv, of = some sv → a = clientAddr sv pid) :
    Inv (initRcv s pid a of) ∧ (initRcv s pid a of).clients = s.clients ∧ ∃ ok, (initRcv s pid a of).log = s.log ++ [.inited s.next pid a of ok] := by
  unfold initRcv
  cases hv : validPath a.name with
  | false =>
    refine ⟨inv_failed h hof fun hc => ?_, rfl, _, rfl⟩
    rw [valid_iff.2 hc] at hv; cases hv
  | true =>
    have hlen := valid_iff.1 hv
    obtain ⟨n, hn⟩ := sockName_some.2 hlen
    simp only [hn]
    split
    · rename_i ho
      refine ⟨inv_failed h hof fun _ => ?_, rfl, _, rfl⟩
      obtain ⟨i, hi⟩ := Option.isSome_iff_exists.1 ho
      obtain ⟨p, b, o, h1, h2⟩ := owner_some h hi
      exact ⟨i, p, b, o, h1, (sockName_eq h2 hn).1 rfl⟩
    · rename_i ho
      have ho : owner s n = none := by simpa using ho
      refine ⟨⟨fun m i p => ?_, ?_, fun i p a o k hm => ?_, h.clients, h.hist.one ⟨fun q b o k hm => absurd (h.ids _ _ _ _ _ hm) (Nat.lt_irrefl _), hof, ?_⟩⟩, rfl, _, rfl⟩
      · simp only [List.mem_append, List.mem_singleton, Prod.mk.injEq, live_snoc]
        rw [h.bound]
        constructor
        · rintro (⟨b, o, h1, h2⟩ | ⟨rfl, rfl, rfl⟩)
          · exact ⟨b, o, .inl ⟨h1, by simp⟩, h2⟩
          · exact ⟨a, of, .inr rfl, hn⟩
        · rintro ⟨b, o, ⟨h1, -⟩ | h1, h2⟩
          · exact .inl ⟨b, o, h1, h2⟩
          · cases h1; rw [hn] at h2; cases h2; exact .inr ⟨rfl, rfl, rfl⟩
      · rw [List.pairwise_append]
        refine ⟨h.one, by simp, fun b hb c hc => ?_⟩
        simp at hc; subst hc
        obtain ⟨b1, o, h1, h2⟩ := (h.bound b.1 b.2.1 b.2.2).1 hb
        intro hc; simp only at hc
        exact owner_none h ho h1 (hc ▸ h2)
      · rcases List.mem_append.1 hm with hm | hm
        · exact Nat.lt_succ_of_lt (h.ids i p a o k hm)
        · simp at hm; rw [hm.1]; exact Nat.lt_succ_self _
      · refine ⟨fun _ => ⟨hlen, fun j q b o hl hc => ?_⟩, fun _ => rfl⟩
        obtain ⟨m, hm⟩ := sockName_some.2 (live_short h.hist hl)
        have := (sockName_eq hm hn).2 hc
        exact owner_none h ho hl (this ▸ hm)

theorem inv_step {s s' : State} {x : Act} (h : Inv s) (hs : step s x = some s') : Inv s' := by
  cases x with
  | server pid a => cases hs; exact (inv_initRcv h pid a none (by simp)).1
  | client pid a =>
    cases hs
    obtain ⟨h1, h2, ok, h3⟩ := inv_initRcv h pid (clientAddr a pid) (some a) (by simp)
    unfold initClient
    split
    · rename_i hok
      refine ⟨h1.bound, h1.one, h1.ids, fun b hb => ?_, h1.hist⟩
      simp only [List.mem_append, List.mem_singleton] at hb
      rcases hb with hb | rfl
      · exact h1.clients b hb
      · simp only [lastOk, h3, List.getLast?_append, List.getLast?_singleton, Option.some_or] at hok
        subst hok
        have h4 := (((h1.hist.all s.log _ [] h3).2.2.1 rfl).1)
        simp only [clientAddr, List.length_append] at h4
        omega
    · exact h1
  | exit pid =>
    cases hs
    refine ⟨fun n i p => ?_, h.one.filter _, fun i p a o k hm => ?_, h.clients, h.hist.one trivial⟩
    · simp only [List.mem_filter, h.bound, live_snoc, reduceCtorEq, or_false, ne_eq, Ev.exited.injEq]
      constructor
      · rintro ⟨⟨a, o, h1, h2⟩, h3⟩; exact ⟨a, o, ⟨h1, fun hc => by simp [hc] at h3⟩, h2⟩
      · rintro ⟨a, o, ⟨h1, h3⟩, h2⟩; exact ⟨⟨a, o, h1, h2⟩, by simp; exact fun hc => h3 hc.symm⟩
    · simp at hm; exact h.ids i p a o k hm
  | stop i => cases hs; exact inv_note h (by simp) (by simp) trivial
  | send a =>
    cases hs
    unfold send
    cases hv : validPath a.name with
    | false =>
      refine inv_note h (by simp) (by simp) fun hc => ?_
      rw [valid_iff.2 hc] at hv; cases hv
    | true =>
      have hlen := valid_iff.1 hv
      obtain ⟨n, hn⟩ := sockName_some.2 hlen
      simp only [hn]
      refine inv_note h (by simp) (by simp) ?_
      cases ho : owner s n with
      | none =>
        intro _ j q b o hl hc
        obtain ⟨m, hm⟩ := sockName_some.2 (live_short h.hist hl)
        have := (sockName_eq hm hn).2 hc
        exact owner_none h ho hl (this ▸ hm)
      | some i =>
        obtain ⟨p, b, o, h1, h2⟩ := owner_some h ho
        exact ⟨hlen, p, b, o, h1, (sockName_eq h2 hn).1 rfl⟩
  | look a =>
    simp only [step] at hs; split at hs <;> cases hs
    rename_i hc
    have hlen := h.clients a hc
    obtain ⟨n, hn⟩ := sockName_some.2 hlen
    unfold look
    simp only [hn]
    refine inv_note h (by simp) (by simp) ⟨hlen, ?_⟩
    constructor
    · intro ho
      obtain ⟨i, hi⟩ := Option.isSome_iff_exists.1 ho
      obtain ⟨p, b, o, h1, h2⟩ := owner_some h hi
      exact ⟨i, p, b, o, h1, (sockName_eq h2 hn).1 rfl⟩
    · rintro ⟨j, q, b, o, hl, hc⟩
      cases ho : owner s n with
      | some i => rfl
      | none =>
        obtain ⟨m, hm⟩ := sockName_some.2 (live_short h.hist hl)
        have := (sockName_eq hm hn).2 hc
        exact absurd (this ▸ hm) (owner_none h ho hl)

theorem inv_run {as : List Act} {s s' : State} (h : Inv s) (hr : run s as = some s') : Inv s' := by
  induction as generalizing s with
  | nil => cases hr; exact h
  | cons a as ih =>
    simp only [run] at hr
    cases hs : step s a with
    | none => rw [hs] at hr; cases hr
    | some s1 => rw [hs] at hr; exact ih (inv_step h hs) hr

theorem Log.hist {l : List Ev} (h : Log l) : Hist EvOk l := by obtain ⟨as, s, hr, rfl⟩ := h; exact (inv_run inv_init hr).hist

/-! ### C77 -/

/-- Two live receivers never share a socket. -/
theorem live_unique {l : List Ev} (h : Hist EvOk l) {i j p q : Nat} {a b : Address} {o u : Option Address} (hi : Live l i p a o) (hj : Live l j q b u) (hc : cstr a.name = cstr b.name) :
    i = j ∧ p = q ∧ a = b ∧ o = u := by
  obtain ⟨l1, l2, e1, n1⟩ := hi
  obtain ⟨k1, k2, e2, n2⟩ := hj
  rcases places (e1.symm.trans e2) with ⟨-, h1, -⟩ | ⟨c, h1, h2⟩ | ⟨c, h1, h2⟩
  · cases h1; exact ⟨rfl, rfl, rfl, rfl⟩
  · have h3 := ((h.all k1 _ k2 e2).2.2.1 rfl).2 i p a o ⟨l1, c, h1, fun hx => n1 (by rw [h2]; simp [hx])⟩
    exact absurd hc h3
  · have h3 := ((h.all l1 _ l2 e1).2.2.1 rfl).2 j q b u ⟨k1, c, h1, fun hx => n2 (by rw [h2]; simp [hx])⟩
    exact absurd hc.symm h3

/-- `init` succeeds iff the name is not too long and no live receiver (of any process) has this name; names count up to
the first zero byte, ports do not count. -/
theorem init_iff {l r : List Ev} {i pid : Nat} {a : Address} {of : Option Address} {ok : Bool} (h : Log (l ++ .inited i pid a of ok :: r)) :
    ok = true ↔ a.name.length ≤ 107 ∧ ¬ ∃ j q b o, Live l j q b o ∧ cstr b.name = cstr a.name := by
  rw [(h.hist.all l _ r rfl).2.2]
  exact and_congr_right fun _ => ⟨fun h1 ⟨j, q, b, o, h2, h3⟩ => h1 j q b o h2 h3, fun h1 j q b o h2 h3 => h1 ⟨j, q, b, o, h2, h3⟩⟩

/-- What is sent to an address reaches exactly the live receiver with this name, if there is one. -/
theorem reaches_name {l r : List Ev} {a : Address} {to : Option Nat} (h : Log (l ++ .sent a to :: r)) (ha : a.name.length ≤ 107) (i : Nat) :
    to = some i ↔ ∃ pid b o, Live l i pid b o ∧ cstr b.name = cstr a.name := by
  have h1 := h.hist.all l _ r rfl
  cases to with
  | none => exact ⟨(fun hc => by cases hc), fun ⟨pid, b, o, h2, h3⟩ => absurd h3 (h1 ha i pid b o h2)⟩
  | some j =>
    obtain ⟨-, pid, b, o, h2, h3⟩ := h1
    constructor
    · intro hc; cases hc; exact ⟨pid, b, o, h2, h3⟩
    · rintro ⟨q, b', o', h4, h5⟩
      have hl : Hist EvOk l := h.hist.left
      rw [(live_unique hl h2 h4 (h3.trans h5.symm)).1]

/-- What is sent to an address reaches the receiver that was given this address, and no other, as long as no name
contains a zero byte and no name is used with two ports. -/
theorem reaches_address_partial {l r : List Ev} {a : Address} {to : Option Nat} (h : Log (l ++ .sent a to :: r)) (ha : Plain a.name)
    (hp : ∀ j q b o, Live l j q b o → Plain b.name ∧ (b.name = a.name → b.port = a.port)) (i : Nat) : to = some i ↔ ∃ pid o, Live l i pid a o := by
  have hl : Hist EvOk l := h.hist.left
  by_cases hlen : a.name.length ≤ 107
  · rw [reaches_name h hlen]
    constructor
    · rintro ⟨pid, b, o, h1, h2⟩
      obtain ⟨h3, h4⟩ := hp i pid b o h1
      rw [cstr_plain h3, cstr_plain ha] at h2
      have : b = a := by have := h4 h2; cases a; cases b; simp_all
      exact ⟨pid, o, this ▸ h1⟩
    · rintro ⟨pid, o, h1⟩; exact ⟨pid, a, o, h1, rfl⟩
  · constructor
    · intro hc; subst hc; exact absurd (h.hist.all l _ r rfl).1 hlen
    · rintro ⟨pid, o, h1⟩; exact absurd (live_short hl h1) hlen

/-- A client that looks for its server sees it iff some live receiver has the server's name. -/
theorem looks_right {l r : List Ev} {a : Address} {t : Bool} (h : Log (l ++ .looked a t :: r)) : t = true ↔ ∃ j q b o, Live l j q b o ∧ cstr b.name = cstr a.name :=
  (h.hist.all l _ r rfl).2

/-- No address makes the code write beyond the socket name. -/
theorem never_overflows {l : List Ev} (h : Log l) : .crashed ∉ l := by
  intro hc; obtain ⟨x, y, rfl⟩ := List.append_of_mem hc; exact h.hist.all x _ y rfl

/-! ### Addresses of clients -/

def value (l : List Nat) : Nat := l.foldl (fun v d => v * 10 + (d - 48)) 0

theorem value_decimal (n : Nat) : value (decimal n) = n := by
  induction n using decimal.induct with
  | case1 n h => rw [decimal, if_pos h]; simp [value]
  | case2 n h ih =>
    rw [decimal, if_neg h]
    unfold value at ih ⊢
    rw [List.foldl_append, ih]; simp; omega

theorem decimal_digit (n : Nat) : ∀ d ∈ decimal n, 48 ≤ d ∧ d ≤ 57 := by
  induction n using decimal.induct with
  | case1 n h => rw [decimal, if_pos h]; intro d hd; simp at hd; omega
  | case2 n h ih =>
    rw [decimal, if_neg h]; intro d hd
    rcases List.mem_append.1 hd with hd | hd
    · exact ih d hd
    · simp at hd; omega

theorem decimal_ne (n : Nat) : decimal n ≠ [] := by rw [decimal]; split <;> simp

theorem undigit_split {a b x y : List Nat} (ha : Undigit a) (hb : Undigit b) (hx : ∀ d ∈ x, 48 ≤ d ∧ d ≤ 57) (hy : ∀ d ∈ y, 48 ≤ d ∧ d ≤ 57) (h : a ++ x = b ++ y) : a = b ∧ x = y := by
  rcases List.append_eq_append_iff.1 h with ⟨c, h1, h2⟩ | ⟨c, h1, h2⟩
  · rcases List.eq_nil_or_concat c with rfl | ⟨c', d, rfl⟩
    · simp at h1 h2; exact ⟨h1.symm, h2⟩
    · exact absurd (hx d (by rw [h2]; simp)) (hb d (by rw [h1]; simp))
  · rcases List.eq_nil_or_concat c with rfl | ⟨c', d, rfl⟩
    · simp at h1 h2; exact ⟨h1, h2.symm⟩
    · exact absurd (hy d (by rw [h2]; simp)) (ha d (by rw [h1]; simp))

/-- Within one process, clients of servers with different names have different names. -/
theorem client_names_differ {a b : Address} {pid : Nat} : (clientAddr a pid).name = (clientAddr b pid).name ↔ a.name = b.name := by
  simp [clientAddr]

theorem plain_client {a : Address} {pid : Nat} (h : Plain a.name) : Plain (clientAddr a pid).name := by
  intro hc; simp only [clientAddr, List.mem_append] at hc
  rcases hc with hc | hc
  · exact h hc
  · have := decimal_digit pid 0 hc; omega

/-- Making a client for a server fails only if the name is too long or this process already has a client of a server
with this name, as long as no server's name contains a zero byte or ends with a digit. -/
theorem client_init_partial {l r : List Ev} {i pid : Nat} {a sv : Address} {ok : Bool} (h : Log (l ++ .inited i pid a (some sv) ok :: r)) (ha : Plain sv.name ∧ Undigit sv.name)
    (hc : ∀ j q b x, Live l j q b (some x) → Plain x.name ∧ Undigit x.name) (hs : ∀ j q b, Live l j q b none → Plain b.name ∧ Undigit b.name) :
    ok = true ↔ sv.name.length + (decimal pid).length ≤ 107 ∧ ¬ ∃ j b x, Live l j pid b (some x) ∧ x.name = sv.name := by
  have hh := h.hist
  have e : a = clientAddr sv pid := (hh.all l _ r rfl).2.1 sv rfl
  rw [init_iff h]
  have hlen : a.name.length = sv.name.length + (decimal pid).length := by rw [e]; simp [clientAddr]
  rw [hlen]
  refine and_congr_right fun _ => not_congr ?_
  have hcl : ∀ j q b x, Live l j q b (some x) → b = clientAddr x q := by
    intro j q b x hl
    obtain ⟨l1, l2, e1, -⟩ := hl
    exact (hh.left.all l1 _ l2 e1).2.1 x rfl
  constructor
  · rintro ⟨j, q, b, o, h1, h2⟩
    rw [e, cstr_plain (plain_client ha.1)] at h2
    cases o with
    | none =>
      obtain ⟨h3, h4⟩ := hs j q b h1
      rw [cstr_plain h3] at h2
      obtain ⟨c, d, hd⟩ := (List.eq_nil_or_concat (decimal pid)).resolve_left (decimal_ne pid)
      refine absurd (decimal_digit pid d (by rw [hd]; simp)) (h4 d ?_)
      rw [h2]; simp [clientAddr, hd]
    | some x =>
      obtain ⟨h3, h4⟩ := hc j q b x h1
      have hb := hcl j q b x h1
      rw [hb, cstr_plain (plain_client h3)] at h2
      obtain ⟨h5, h6⟩ := undigit_split h4 ha.2 (decimal_digit q) (decimal_digit pid) h2
      have : q = pid := by have := congrArg value h6; rwa [value_decimal, value_decimal] at this
      subst this
      exact ⟨j, b, x, h1, h5⟩
  · rintro ⟨j, b, x, h1, h2⟩
    refine ⟨j, pid, b, some x, h1, ?_⟩
    rw [hcl j pid b x h1, e]; simp [clientAddr, h2]

/-! ### Refuted -/

/-- The log of a run, for examples. -/
def logOf (as : List Act) : List Ev := ((run init as).map State.log).getD []

theorem logOf_log {as : List Act} {s : State} (h : run init as = some s) : Log (logOf as) := ⟨as, s, h, by simp [logOf, h]⟩

/-- "x" -/
def x (port : Nat) : Address := ⟨[120], port⟩

/-- Ports do not count: what is sent to one address reaches the server at another, and a second server with the same
name, but another port, can not be made. -/
theorem wrong_port : ∃ l, Log l ∧ .inited 0 7 (x 1) none true ∈ l ∧ .inited 1 8 (x 2) none false ∈ l ∧ .sent (x 2) (some 0) ∈ l :=
  ⟨logOf [.server 7 (x 1), .server 8 (x 2), .send (x 2)], ⟨[.server 7 (x 1), .server 8 (x 2), .send (x 2)], _, rfl, rfl⟩, by decide +kernel⟩

/-- The client of server "x" in process 11, and the client of server "x1" in process 1, have the same name: the second can
not be made; answers to it would reach the first. -/
theorem client_clash : clientAddr ⟨[120], 1⟩ 11 = clientAddr ⟨[120, 49], 1⟩ 1 ∧
    ∃ l, Log l ∧ .inited 0 11 (clientAddr ⟨[120], 1⟩ 11) (some ⟨[120], 1⟩) true ∈ l ∧ .inited 1 1 (clientAddr ⟨[120, 49], 1⟩ 1) (some ⟨[120, 49], 1⟩) false ∈ l :=
  ⟨by decide +kernel, logOf [.client 11 ⟨[120], 1⟩, .client 1 ⟨[120, 49], 1⟩], ⟨[.client 11 ⟨[120], 1⟩, .client 1 ⟨[120, 49], 1⟩], _, rfl, rfl⟩, by decide +kernel⟩

/-- A server that was stopped can not be made again by the same process: for every continuation, until it exits, another
receiver with this name is refused. -/
theorem no_restart {l r : List Ev} {i j pid q : Nat} {a b : Address} {o u : Option Address} {ok : Bool} (h : Log (l ++ .inited j q b u ok :: r)) (hl : Live l i pid a o)
    (hc : b.name = a.name) : ok = false := by
  cases ok with
  | false => rfl
  | true => exact absurd ⟨i, pid, a, o, hl, by rw [hc]⟩ ((init_iff h).1 rfl).2

theorem stopped_still_owns : ∃ l, Log l ∧ l = [.inited 0 7 (x 1) none true, .stopped 0, .inited 1 7 (x 1) none false, .sent (x 1) (some 0), .exited 7, .inited 2 7 (x 1) none true] :=
  ⟨logOf [.server 7 (x 1), .stop 0, .server 7 (x 1), .send (x 1), .exit 7, .server 7 (x 1)], ⟨[.server 7 (x 1), .stop 0, .server 7 (x 1), .send (x 1), .exit 7, .server 7 (x 1)], _, rfl, rfl⟩, by decide +kernel⟩

/-! ### Not vacuous -/

example : logOf [.server 7 (x 1), .client 8 (x 1), .look (x 1), .send (x 1), .send (clientAddr (x 1) 8), .send ⟨[121], 1⟩] =
    [.inited 0 7 (x 1) none true, .inited 1 8 ⟨[120, 56], 1⟩ (some (x 1)) true, .looked (x 1) true, .sent (x 1) (some 0), .sent ⟨[120, 56], 1⟩ (some 1), .sent ⟨[121], 1⟩ none] := by decide +kernel

example : Live [.inited 0 7 (x 1) none true, .sent (x 1) (some 0)] 0 7 (x 1) none := ⟨[], [.sent (x 1) (some 0)], rfl, by simp⟩

example : Plain (x 1).name ∧ Undigit (x 1).name := ⟨by simp [Plain, x], fun d hd => by simp [x] at hd; subst hd; decide⟩

end Maf.Ends
