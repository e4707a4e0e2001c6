import Verif.Spec.Provider
import Verif.Lemmas.Calls
/-
The shared state of a provider is what the history says, and every event obeys its rule.
-/
namespace Maf.Prov
open Maf.Calls

structure Abs (s : Sh) (l : List Event) : Prop where
  regs : s.regs = regsIn l
  props : ∀ op, s.props op = statusIn l op
  handlers : ∀ op, s.handlers op = handlerIn l op
  listeners : ∀ op, s.listeners op = listenersIn l op
  pend : s.pend = pendIn l
  nodup : s.pend.Nodup
  lt : ∀ r ∈ s.pend, r < s.nextR
  msg : ∀ r, msgIn l r = if r < s.nextR then some (s.req r).msg else none
  valid : ∀ r, (s.req r).valid = validIn l r
  abort : ∀ r, (s.req r).abort = abortIn l r
  reqLock : s.reqLock = reqLockIn l
  lisLock : s.lisLock = lisLockIn l
  mtx : ∀ r, s.mtx r = mtxIn l r
  alive : s.alive = false → ∃ n, .did n .expire () ∈ l
  news : ∀ r, s.nextR ≤ r → (s.req r).valid = false

theorem abs_init : Abs init [] := by
  constructor <;> simp [init, regsIn, statusIn, handlerIn, listenersIn, pendIn, msgIn, validIn, abortIn, reqLockIn, lisLockIn, mtxIn]

theorem regsIn_one (l : List Event) (e : Event) : regsIn (l ++ [e]) = regsStep (regsIn l) e := by simp [regsIn, List.foldl_append]
theorem statusIn_one (l : List Event) (e : Event) (op : Nat) : statusIn (l ++ [e]) op = statusStep op (statusIn l op) e := by simp [statusIn, List.foldl_append]
theorem handlerIn_one (l : List Event) (e : Event) (op : Nat) : handlerIn (l ++ [e]) op = handlerStep op (handlerIn l op) e := by simp [handlerIn, List.foldl_append]
theorem listenersIn_one (l : List Event) (e : Event) (op : Nat) : listenersIn (l ++ [e]) op = listenStep op (listenersIn l op) e := by simp [listenersIn, List.foldl_append]
theorem pendIn_one (l : List Event) (e : Event) : pendIn (l ++ [e]) = pendStep (pendIn l) e := by simp [pendIn, List.foldl_append]
theorem msgIn_one (l : List Event) (e : Event) (r : Nat) : msgIn (l ++ [e]) r = msgStep r (msgIn l r) e := by simp [msgIn, List.foldl_append]
theorem validIn_one (l : List Event) (e : Event) (r : Nat) : validIn (l ++ [e]) r = validStep r (validIn l r) e := by simp [validIn, List.foldl_append]
theorem abortIn_one (l : List Event) (e : Event) (r : Nat) : abortIn (l ++ [e]) r = abortStep r (abortIn l r) e := by simp [abortIn, List.foldl_append]
theorem reqLockIn_one (l : List Event) (e : Event) : reqLockIn (l ++ [e]) = reqLockStep (reqLockIn l) e := by simp [reqLockIn, List.foldl_append]
theorem lisLockIn_one (l : List Event) (e : Event) : lisLockIn (l ++ [e]) = lisLockStep (lisLockIn l) e := by simp [lisLockIn, List.foldl_append]
theorem mtxIn_one (l : List Event) (e : Event) (r : Nat) : mtxIn (l ++ [e]) r = mtxStep r (mtxIn l r) e := by simp [mtxIn, List.foldl_append]

/-- The fields an event leaves as they are. -/
macro "keep" h:ident : tactic => `(tactic| (
  (try intros)
  (try simp only [regsIn_one, statusIn_one, handlerIn_one, listenersIn_one, pendIn_one, msgIn_one, validIn_one, abortIn_one, reqLockIn_one, lisLockIn_one, mtxIn_one])
  first
    | exact ($h).regs | exact ($h).props _ | exact ($h).handlers _ | exact ($h).listeners _ | exact ($h).pend | exact ($h).nodup | exact ($h).lt _ ‹_› | exact ($h).msg _ | exact ($h).valid _ | exact ($h).abort _
    | exact ($h).reqLock | exact ($h).lisLock | exact ($h).mtx _ | exact ($h).news _ ‹_›
    | exact (($h).alive ‹_›).elim fun n hn => ⟨n, List.mem_append_left _ hn⟩))

/-- Events that change nothing. -/
theorem Abs.skip {s : Sh} {l : List Event} (h : Abs s l) {e : Event} (he : ∀ n q a, e ≠ .did n q a) : Abs s (l ++ [e]) := by
  cases e with
  | did n q a => exact absurd rfl (he n q a)
  | _ => constructor <;> keep h

theorem find_congr {α : Type} {p q : α → Bool} {l : List α} (h : ∀ x ∈ l, p x = q x) : l.find? p = l.find? q := by
  induction l with
  | nil => rfl
  | cons x l ih => rw [List.find?_cons, List.find?_cons, h x (by simp), ih fun y hy => h y (by simp [hy])]

theorem lookup_eq {s : Sh} {l : List Event} (h : Abs s l) (op : OpId) (id : Option Nat) : lookup s op id = (pendIn l).find? (hasId l op id) := by
  rw [← h.pend]
  refine find_congr fun r hr => ?_
  simp [hasId, h.msg, h.lt r hr]

theorem exec_ok {s s' : Sh} {l : List Event} (h : Abs s l) {n : Nat} {q : Query} {e : Status} {a : Ans q} (hx : exec s n q e = some (a, s')) :
    EvOk l (.did n q a) ∧ Abs s' (l ++ [.did n q a]) := by
  cases q with
  | saveReg b op =>
    cases hx
    refine ⟨trivial, ?_⟩
    constructor <;> try keep h
    rw [regsIn_one, ← h.regs]; rfl
  | dropReg b op =>
    cases hx
    refine ⟨trivial, ?_⟩
    constructor <;> try keep h
    rw [regsIn_one, ← h.regs]; rfl
  | dropAddr b =>
    cases hx
    refine ⟨trivial, ?_⟩
    constructor <;> try keep h
    rw [regsIn_one, ← h.regs]; rfl
  | clearRegs =>
    cases hx
    refine ⟨trivial, ?_⟩
    constructor <;> try keep h
    rw [regsIn_one]; rfl
  | registered op =>
    cases hx
    exact ⟨by simp only [EvOk, clientsIn, h.regs], by constructor <;> keep h⟩
  | status op =>
    cases hx
    exact ⟨h.props op, by constructor <;> keep h⟩
  | setStatus op p =>
    simp only [exec] at hx
    cases hx
    refine ⟨?_, ?_⟩
    · simp only [EvOk, ← h.props]
      cases s.props op <;> cases p <;> simp [changed]
    · split
      · next hc =>
        rw [hc]
        constructor <;> try keep h
        intro o
        rw [statusIn_one]
        simp only [statusStep, upd, h.props, eq_comm]
      · next hc =>
        simp only [Bool.not_eq_true] at hc
        rw [hc]
        constructor <;> keep h
  | dropStatus op =>
    cases hx
    refine ⟨trivial, ?_⟩
    constructor <;> try keep h
    intro o
    rw [statusIn_one]
    simp only [statusStep, upd, h.props, eq_comm]
  | clearStatus =>
    cases hx
    refine ⟨trivial, ?_⟩
    constructor <;> try keep h
    intro o
    rw [statusIn_one]; rfl
  | handler op =>
    cases hx
    exact ⟨h.handlers op, by constructor <;> keep h⟩
  | addHandler op f =>
    simp only [exec] at hx
    split at hx <;> cases hx
    · next hc =>
      refine ⟨by simp [EvOk, ← h.handlers, hc], ?_⟩
      constructor <;> try keep h
      intro o
      rw [handlerIn_one]
      simp only [handlerStep, upd, h.handlers, eq_comm]
    · next hc => exact ⟨by simp [EvOk, ← h.handlers, hc], by constructor <;> keep h⟩
  | dropHandler op =>
    cases hx
    refine ⟨by simp [EvOk, ← h.handlers, Option.isSome_iff_ne_none], ?_⟩
    constructor <;> try keep h
    intro o
    rw [handlerIn_one]
    simp only [handlerStep, upd, h.handlers, eq_comm]
  | newReq m =>
    simp only [exec] at hx
    split at hx <;> cases hx
    next hl =>
    refine ⟨⟨by simp [h.msg], by rw [← h.reqLock, hl]⟩, ?_⟩
    constructor <;> try keep h
    · rw [pendIn_one]; simp only [pendStep, h.pend]
    · rw [List.nodup_append]
      refine ⟨h.nodup, by simp, fun a ha b hb => ?_⟩
      simp at hb; subst hb
      exact Nat.ne_of_lt (h.lt a ha)
    · intro r hr
      rcases List.mem_append.1 hr with k | k
      · exact Nat.lt_succ_of_lt (h.lt r k)
      · simp at k; subst k; exact Nat.lt_succ_self _
    · intro r
      rw [msgIn_one]
      simp only [msgStep, upd, h.msg]
      by_cases e : r = s.nextR
      · subst e; simp
      · rw [if_neg (Ne.symm e), if_neg e]
        have : r < s.nextR + 1 ↔ r < s.nextR := ⟨fun k => Nat.lt_of_le_of_ne (Nat.le_of_lt_succ k) e, Nat.lt_succ_of_lt⟩
        simp only [this]
    · intro r
      rw [validIn_one]
      simp only [validStep, upd, ← h.valid]
      by_cases e : r = s.nextR
      · subst e; simp
      · rw [if_neg (Ne.symm e), if_neg e]
    · intro r
      rw [abortIn_one]
      simp only [abortStep, upd, ← h.abort]
      by_cases e : r = s.nextR
      · subst e; simp
      · rw [if_neg (Ne.symm e), if_neg e]
    · intro r hr
      have : r ≠ s.nextR := Nat.ne_of_gt hr
      simp only [upd, if_neg this]
      exact h.news r (Nat.le_of_succ_le hr)
  | find op id rm =>
    simp only [exec] at hx
    split at hx <;> cases hx
    next hl =>
    refine ⟨⟨lookup_eq h op id, by rw [← h.reqLock, hl]⟩, ?_⟩
    split
    · next r hr =>
      cases rm with
      | false => rw [hr]; constructor <;> keep h
      | true =>
        rw [hr]
        simp only [if_true]
        constructor <;> try keep h
        · rw [pendIn_one]; simp only [pendStep, ← h.pend]; exact List.Nodup.erase_eq_filter h.nodup r
        · exact List.Nodup.erase _ h.nodup
        · intro r' hr'; exact h.lt r' (List.mem_of_mem_erase hr')
    · next hr => rw [hr]; cases rm <;> constructor <;> keep h
  | lockReqs =>
    simp only [exec] at hx
    split at hx <;> cases hx
    next hl =>
    refine ⟨⟨h.pend, by rw [← h.reqLock, hl]⟩, ?_⟩
    constructor <;> try keep h
    rw [reqLockIn_one]; rfl
  | unlockReqs =>
    cases hx
    refine ⟨trivial, ?_⟩
    constructor <;> try keep h
    rw [reqLockIn_one]; rfl
  | check r =>
    simp only [exec] at hx
    split at hx <;> cases hx
    next hl =>
    refine ⟨⟨by rw [← h.mtx, hl.1], ?_⟩, by constructor <;> keep h⟩
    cases hv : (s.req r).valid with
    | false => simp [← h.valid, hv]
    | true =>
      cases ha : s.alive with
      | false => simp only [Bool.not_true, Bool.false_eq_true, if_false]; exact ⟨by rw [← h.valid, hv], h.alive ha⟩
      | true => simp [← h.valid, hv, h.msg, hl.2]
  | invalidate r =>
    simp only [exec] at hx
    split at hx <;> cases hx
    next hl =>
    refine ⟨⟨h.valid r, by rw [← h.mtx, hl]⟩, ?_⟩
    constructor <;> try keep h
    · intro r'
      rw [msgIn_one]
      simp only [msgStep, upd, h.msg]
      by_cases e : r' = r
      · subst e; simp
      · simp [e]
    · intro r'
      rw [validIn_one]
      simp only [validStep, upd, ← h.valid]
      by_cases e : r' = r
      · subst e; simp
      · rw [if_neg (Ne.symm e), if_neg e]
    · intro r'
      rw [abortIn_one]
      simp only [abortStep, upd, ← h.abort]
      by_cases e : r' = r
      · subst e; simp
      · simp [e]
    · intro r' hr'
      simp only [upd]
      split
      · rfl
      · exact h.news r' hr'
  | abortFn r =>
    simp only [exec] at hx
    split at hx <;> cases hx
    next hl =>
    exact ⟨⟨h.abort r, by rw [← h.mtx, hl]⟩, by constructor <;> keep h⟩
  | setAbort r f =>
    simp only [exec] at hx
    split at hx
    · next hl =>
      split at hx <;> cases hx
      · next hv =>
        refine ⟨⟨by rw [← h.valid, hv], by rw [← h.mtx, hl.1], by simp [h.msg, hl.2]⟩, ?_⟩
        constructor <;> try keep h
        · intro r'
          rw [msgIn_one]
          simp only [msgStep, upd, h.msg]
          by_cases e : r' = r
          · subst e; simp
          · simp [e]
        · intro r'
          rw [validIn_one]
          simp only [validStep, upd, ← h.valid]
          by_cases e : r' = r
          · subst e; simp
          · simp [e]
        · intro r'
          rw [abortIn_one]
          simp only [abortStep, upd, ← h.abort]
          by_cases e : r' = r
          · subst e; simp
          · rw [if_neg (Ne.symm e), if_neg e]
        · intro r' hr'
          simp only [upd]
          split
          · next e => subst e; exact absurd hl.2 (Nat.not_lt.2 hr')
          · exact h.news r' hr'
      · next hv =>
        refine ⟨⟨by rw [← h.valid]; simpa using hv, by rw [← h.mtx, hl.1], by simp [h.msg, hl.2]⟩, ?_⟩
        constructor <;> try keep h
        intro r'
        rw [mtxIn_one]
        simp only [mtxStep, upd, ← h.mtx]
        by_cases e : r' = r
        · subst e; simp
        · rw [if_neg (Ne.symm e), if_neg e]
    · cases hx
  | freeReq r =>
    cases hx
    refine ⟨trivial, ?_⟩
    constructor <;> try keep h
    intro r'
    rw [mtxIn_one]
    simp only [mtxStep, upd, ← h.mtx]
    by_cases e : r' = r
    · subst e; simp
    · rw [if_neg (Ne.symm e), if_neg e]
  | valid r =>
    simp only [exec] at hx
    split at hx <;> cases hx
    next hl =>
    exact ⟨⟨h.valid r, by rw [← h.mtx, hl.1]⟩, by constructor <;> keep h⟩
  | lockListeners op =>
    simp only [exec] at hx
    split at hx <;> cases hx
    next hl =>
    refine ⟨⟨h.listeners op, by rw [← h.lisLock, hl]⟩, ?_⟩
    constructor <;> try keep h
    rw [lisLockIn_one]; rfl
  | unlockListeners =>
    cases hx
    refine ⟨trivial, ?_⟩
    constructor <;> try keep h
    rw [lisLockIn_one]; rfl
  | listen op f =>
    simp only [exec] at hx
    split at hx <;> cases hx
    next hl =>
    refine ⟨by simp only [EvOk, ← h.lisLock, hl], ?_⟩
    constructor <;> try keep h
    intro o
    rw [listenersIn_one]
    simp only [listenStep, upd, ← h.listeners]
    by_cases e : o = op
    · subst e; simp
    · rw [if_neg (Ne.symm e), if_neg e]
  | expire =>
    cases hx
    refine ⟨trivial, ?_⟩
    constructor <;> try keep h
    intro _; exact ⟨n, by simp⟩
  | send b m =>
    cases hx
    exact ⟨trivial, by constructor <;> keep h⟩
  | run cb =>
    cases hx
    exact ⟨trivial, by constructor <;> keep h⟩

/-- All that is known of a reachable state. -/
structure Good (s : St) : Prop where
  inv : Inv s
  abs : Abs s.sh s.log
  hist : Hist EvOk s.log

theorem good_step {s s' : St} (h : Good s) (hs : Steps s s') : Good s' := by
  refine ⟨inv_step h.inv hs, ?_, ?_⟩
  · cases hs with
    | call c => exact h.abs.skip (by simp)
    | ret n r => exact h.abs.skip (by simp)
    | crash n => exact h.abs.skip (by simp)
    | did n q k e a sh hu hp hx => exact (exec_ok h.abs hx).2
  · cases hs with
    | call c => exact h.hist.one trivial
    | ret n r => exact h.hist.one trivial
    | crash n => exact h.hist.one trivial
    | did n q k e a sh hu hp hx => exact h.hist.one (exec_ok h.abs hx).1

theorem good_run {as : List (Act sys)} {s : St} (hr : run (Calls.init sys) as = some s) : Good s :=
  run_induct (S := sys) (I := Good) ⟨inv_init, abs_init, Hist.nil⟩ (fun _ _ => good_step) hr

end Maf.Prov
