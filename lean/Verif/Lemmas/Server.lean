import Verif.Spec.Server
import Verif.Lemmas.Client
import Verif.Lemmas.Section
/-
The shared state of a server is what the history says, and every event obeys its rule.
-/
namespace Maf.Srv
open Maf.Calls
open Maf.Cli (get_snoc get_mem get_keys)

structure Abs (s : Sh) (l : List Event) : Prop where
  provs : ∀ sid, Cli.get s.provs sid = provIn l sid
  provKeys : (s.provs.map (·.1)).Nodup
  provLock : s.provLock = provLockIn l
  made : ∀ p sid, Made l p sid → p < s.nextPr
  old : ∀ p, p < s.nextPr → Made l p (s.sidOf p)
  avail : ∀ p, s.avail p = availIn l p
  addrs : s.addrs = addrsIn l
  addrLock : s.addrLock = addrLockIn l

theorem abs_init : Abs init [] := by
  constructor <;> simp [init, provIn, provLockIn, availIn, addrsIn, addrLockIn, Cli.get, Made]

theorem provIn_one (l : List Event) (e : Event) (s : Sid) : provIn (l ++ [e]) s = provStep s (provIn l s) e := by simp [provIn, List.foldl_append]
theorem provLockIn_one (l : List Event) (e : Event) : provLockIn (l ++ [e]) = provLockStep (provLockIn l) e := by simp [provLockIn, List.foldl_append]
theorem availIn_one (l : List Event) (e : Event) (p : Pr) : availIn (l ++ [e]) p = availStep p (availIn l p) e := by simp [availIn, List.foldl_append]
theorem addrsIn_one (l : List Event) (e : Event) : addrsIn (l ++ [e]) = addrStep (addrsIn l) e := by simp [addrsIn, List.foldl_append]
theorem addrLockIn_one (l : List Event) (e : Event) : addrLockIn (l ++ [e]) = addrLockStep (addrLockIn l) e := by simp [addrLockIn, List.foldl_append]
theorem newsIn_one (l : List Event) (e : Event) (a : Addr) (s : Sid) : newsIn (l ++ [e]) a s = newsStep a s (newsIn l a s) e := by simp [newsIn, List.foldl_append]

theorem made_one {l : List Event} {e : Event} {p : Pr} {sid : Sid} : Made (l ++ [e]) p sid ↔ Made l p sid ∨ ∃ n, e = .did n (.getProv sid) (p, true) := by
  simp only [Made, List.mem_append, List.mem_singleton, eq_comm (a := e)]
  constructor
  · rintro ⟨n, h | h⟩
    · exact .inl ⟨n, h⟩
    · exact .inr ⟨n, h⟩
  · rintro (⟨n, h⟩ | ⟨n, h⟩)
    · exact ⟨n, .inl h⟩
    · exact ⟨n, .inr h⟩

/-- The fields an event leaves as they are. -/
macro "keep" h:ident : tactic => `(tactic| (
  (try intros)
  (try simp only [provIn_one, provLockIn_one, availIn_one, addrsIn_one, addrLockIn_one])
  first
    | exact ($h).provs _ | exact ($h).provKeys | exact ($h).provLock | exact ($h).avail _ | exact ($h).addrs | exact ($h).addrLock
    | (next hm => rcases made_one.1 hm with hm | ⟨_, hm⟩; exact ($h).made _ _ hm; cases hm)
    | (next hm => exact made_one.2 (.inl (($h).old _ hm)))))

/-- Events that change nothing. -/
theorem Abs.skip {s : Sh} {l : List Event} (h : Abs s l) {e : Event} (he : ∀ n q a, e ≠ .did n q a) : Abs s (l ++ [e]) := by
  cases e with
  | did n q a => exact absurd rfl (he n q a)
  | _ => constructor <;> keep h

theorem exec_ok {s s' : Sh} {l : List Event} (h : Abs s l) {n : Nat} {q : Query} {e : Out} {a : Ans q} (hx : exec s n q e = some (a, s')) :
    EvOk l (.did n q a) ∧ Abs s' (l ++ [.did n q a]) := by
  cases q with
  | getProv sid =>
    simp only [exec] at hx
    split at hx
    · next hl =>
      split at hx
      · next p hp =>
        cases hx
        exact ⟨⟨by rw [← h.provs, hp], by rw [← h.provLock, hl]⟩, by constructor <;> keep h⟩
      · next hp =>
        cases hx
        refine ⟨⟨by rw [← h.provs, hp], fun s' hs' => absurd (h.made _ _ hs') (Nat.lt_irrefl _), by rw [← h.provLock, hl]⟩, ?_⟩
        constructor <;> try keep h
        · intro sid'; rw [provIn_one]; simp only [provStep, get_snoc _ _ _ _ hp, h.provs]
        · show ((s.provs ++ [(sid, s.nextPr)]).map (·.1)).Nodup
          rw [List.map_append, List.nodup_append]
          refine ⟨h.provKeys, by simp, ?_⟩
          intro x hx y hy
          simp at hy
          subst hy
          rintro rfl
          exact get_keys.1 hx hp
        · intro p sid' hm
          rcases made_one.1 hm with hm | ⟨n', hm⟩
          · exact Nat.lt_succ_of_lt (h.made _ _ hm)
          · cases hm; exact Nat.lt_succ_self _
        · intro p hp'
          rcases Nat.lt_succ_iff_lt_or_eq.1 hp' with hp' | rfl
          · show Made _ p (upd s.sidOf s.nextPr sid p)
            rw [upd_other (Nat.ne_of_lt hp')]
            exact made_one.2 (.inl (h.old p hp'))
          · show Made _ _ (upd s.sidOf s.nextPr sid s.nextPr)
            rw [upd_same]
            exact made_one.2 (.inr ⟨n, rfl⟩)
    · cases hx
  | hasProv sid =>
    simp only [exec] at hx
    split at hx <;> cases hx
    next hl => exact ⟨⟨by rw [h.provs, Option.isSome_iff_ne_none], by rw [← h.provLock, hl]⟩, by constructor <;> keep h⟩
  | checkProv sid =>
    simp only [exec] at hx
    split at hx <;> cases hx
    next hl => exact ⟨⟨by rw [h.provs, Option.isSome_iff_ne_none], by rw [← h.provLock, hl]⟩, by constructor <;> keep h⟩
  | findProv sid =>
    simp only [exec] at hx
    split at hx <;> cases hx
    next hl => exact ⟨⟨h.provs sid, by rw [← h.provLock, hl]⟩, by constructor <;> keep h⟩
  | takeProvs =>
    simp only [exec] at hx
    split at hx <;> cases hx
    next hl =>
    refine ⟨⟨fun sid p => by rw [get_mem h.provKeys, h.provs], h.provKeys, by rw [← h.provLock, hl]⟩, ?_⟩
    constructor <;> try keep h
    · intro sid; rw [provIn_one]; rfl
    · simp
  | lockProvs =>
    simp only [exec] at hx
    split at hx <;> cases hx
    next hl =>
    refine ⟨⟨fun sid p => by rw [get_mem h.provKeys, h.provs], h.provKeys, by rw [← h.provLock, hl]⟩, ?_⟩
    constructor <;> try keep h
    rw [provLockIn_one]; rfl
  | unlockProvs =>
    cases hx
    refine ⟨trivial, ?_⟩
    constructor <;> try keep h
    rw [provLockIn_one]; rfl
  | avail p =>
    cases hx
    exact ⟨h.avail p, by constructor <;> keep h⟩
  | readAvail p =>
    cases hx
    exact ⟨h.avail p, by constructor <;> keep h⟩
  | setAvail p b =>
    simp only [exec] at hx
    split at hx <;> cases hx
    next hl =>
    refine ⟨h.old p hl, ?_⟩
    constructor <;> try keep h
    intro p'
    rw [availIn_one]
    simp only [availStep, upd, h.avail, eq_comm]
  | addAddr x =>
    simp only [exec] at hx
    split at hx <;> cases hx
    next hl =>
    refine ⟨by rw [EvOk, ← h.addrLock, hl], ?_⟩
    constructor <;> try keep h
    rw [addrsIn_one]; simp only [addrStep, h.addrs]
  | dropAddr x =>
    simp only [exec] at hx
    split at hx <;> cases hx
    next hl =>
    refine ⟨by rw [EvOk, ← h.addrLock, hl], ?_⟩
    constructor <;> try keep h
    rw [addrsIn_one]; simp only [addrStep, h.addrs]
  | lockAddrs =>
    simp only [exec] at hx
    split at hx <;> cases hx
    next hl =>
    refine ⟨⟨h.addrs, by rw [← h.addrLock, hl]⟩, ?_⟩
    constructor <;> try keep h
    rw [addrLockIn_one]; rfl
  | unlockAddrs as =>
    cases hx
    refine ⟨trivial, ?_⟩
    constructor <;> try keep h
    · rw [addrsIn_one]; rfl
    · rw [addrLockIn_one]; rfl
  | _ =>
    cases hx
    exact ⟨trivial, by constructor <;> keep h⟩

/-- All that is known of a reachable state. -/
structure Good (s : St) : Prop where
  inv : Inv s
  abs : Abs s.sh s.log
  hist : Hist EvOk s.log

theorem good_step {s s' : St} (h : Good s) (hs : Steps s s') : Good s' := by
  refine ⟨inv_step h.inv hs, ?_, ?_⟩
  · cases hs with
    | call c => exact h.abs.skip (by simp)
    | ret n r => exact h.abs.skip (by simp)
    | crash n => exact h.abs.skip (by simp)
    | did n q k e a sh hu hp hx => exact (exec_ok h.abs hx).2
  · cases hs with
    | call c => exact h.hist.one trivial
    | ret n r => exact h.hist.one trivial
    | crash n => exact h.hist.one trivial
    | did n q k e a sh hu hp hx => exact h.hist.one (exec_ok h.abs hx).1

theorem good_run {as : List (Act sys)} {s : St} (hr : run (Calls.init sys) as = some s) : Good s :=
  run_induct (S := sys) (I := Good) ⟨inv_init, abs_init, Hist.nil⟩ (fun _ _ => good_step) hr

/-- A reachable history. -/
abbrev Run (l : List Event) : Prop := ∃ as s, run (Calls.init sys) as = some s ∧ s.log = l

theorem Run.left {l r : List Event} (h : Run (l ++ r)) : Run l := by
  obtain ⟨as, s, hr, hl⟩ := h
  exact run_prefix hr hl

theorem Run.hist {l : List Event} (h : Run l) : Hist EvOk l := by
  obtain ⟨as, s, hr, rfl⟩ := h
  exact (good_run hr).hist

theorem Run.ok {l r : List Event} {e : Event} (h : Run (l ++ e :: r)) : EvOk l e := h.hist.all l e r rfl

end Maf.Srv
