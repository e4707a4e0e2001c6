import Verif.Spec.Client
import Verif.Lemmas.Calls
/-
The shared state of a client is what the history says, and every event obeys its rule.
-/
namespace Maf.Cli
open Maf.Calls

theorem get_cons {β : Type} (a : Nat) (b : β) (m : List (Nat × β)) (j : Nat) : get ((a, b) :: m) j = if a = j then some b else get m j := by
  by_cases h : a = j
  · subst h; simp [get]
  · simp [get, List.find?_cons, beq_eq_false_iff_ne.2 h, h]

theorem get_map {β : Type} (m : List (Nat × β)) (k : Nat) (v : β) (j : Nat) :
    get (m.map fun x => if x.1 == k then (k, v) else x) j = if k = j then (get m j).map fun _ => v else get m j := by
  induction m with
  | nil => simp [get]
  | cons x m ih =>
    obtain ⟨a, b⟩ := x
    by_cases hk : a = k
    · subst hk
      simp only [List.map_cons, beq_self_eq_true, if_true, get_cons, ih]
      split <;> simp_all
    · simp only [List.map_cons, beq_eq_false_iff_ne.2 hk, Bool.false_eq_true, if_false, get_cons, ih]
      by_cases hj : a = j
      · subst hj; simp [Ne.symm hk]
      · simp [hj]

theorem get_put {β : Type} (m : List (Nat × β)) (k : Nat) (v : β) (j : Nat) : get (put m k v) j = if k = j then some v else get m j := by
  unfold put
  split
  · next h =>
    rw [get_map]
    split
    · next hj => subst hj; cases hg : get m k with
                 | none => rw [hg] at h; cases h
                 | some _ => rfl
    · rfl
  · next h =>
    simp only [Bool.not_eq_true, Option.isSome_eq_false_iff, Option.isNone_iff_eq_none] at h
    simp only [get, List.find?_append]
    by_cases hj : k = j
    · subst hj
      simp only [get, Option.map_eq_none_iff] at h
      simp [h]
    · simp [hj, beq_eq_false_iff_ne.2 hj]

theorem get_snoc {β : Type} (m : List (Nat × β)) (k : Nat) (v : β) (j : Nat) (h : get m k = none) : get (m ++ [(k, v)]) j = if k = j then some v else get m j := by
  have := get_put m k v j
  unfold put at this
  simpa [h] using this

theorem get_mem {β : Type} {m : List (Nat × β)} (hn : (m.map (·.1)).Nodup) {k : Nat} {v : β} : (k, v) ∈ m ↔ get m k = some v := by
  induction m with
  | nil => simp [get]
  | cons x m ih =>
    obtain ⟨a, b⟩ := x
    rw [List.map_cons, List.nodup_cons] at hn
    by_cases hk : a = k
    · subst hk
      simp only [get, List.find?_cons, beq_self_eq_true, Option.map_some, Option.some.injEq, List.mem_cons, Prod.mk.injEq, true_and]
      constructor
      · rintro (h | h)
        · exact h.symm
        · exact absurd (List.mem_map.2 ⟨_, h, rfl⟩) hn.1
      · intro h; exact .inl h.symm
    · have := ih hn.2
      simp only [get, List.find?_cons, beq_eq_false_iff_ne.2 hk, List.mem_cons, Prod.mk.injEq] at this ⊢
      rw [← this]
      constructor
      · rintro (⟨h, -⟩ | h)
        · exact absurd h.symm hk
        · exact h
      · exact .inr

theorem get_keys {β : Type} {m : List (Nat × β)} {k : Nat} : k ∈ m.map (·.1) ↔ get m k ≠ none := by
  induction m with
  | nil => simp [get]
  | cons x m ih =>
    obtain ⟨a, b⟩ := x
    by_cases hk : a = k
    · subst hk; simp [get]
    · simp only [get, List.find?_cons, beq_eq_false_iff_ne.2 hk, List.map_cons, List.mem_cons] at ih ⊢
      rw [← ih]
      constructor
      · rintro (h | h)
        · exact absurd h.symm hk
        · exact h
      · exact .inr

theorem put_keys {β : Type} {m : List (Nat × β)} (hn : (m.map (·.1)).Nodup) (k : Nat) (v : β) : ((put m k v).map (·.1)).Nodup := by
  unfold put
  split
  · next h =>
    have : (m.map fun x => if x.1 == k then (k, v) else x).map (·.1) = m.map (·.1) := by
      rw [List.map_map]
      refine List.map_congr_left fun x _ => ?_
      simp only [Function.comp]
      split
      · next h => exact (eq_of_beq h).symm
      · rfl
    rw [this]; exact hn
  · next h =>
    rw [List.map_append, List.nodup_append]
    refine ⟨hn, by simp, ?_⟩
    intro x hx y hy
    simp at hy
    subst hy
    rintro rfl
    have := get_keys.1 hx
    cases hg : get m x with
    | none => exact this hg
    | some _ => rw [hg] at h; exact h rfl

structure Abs (s : Sh) (l : List Event) : Prop where
  map : ∀ sid, get s.map sid = mapIn l sid
  mapKeys : (s.map.map (·.1)).Nodup
  mapLock : s.mapLock = mapLockIn l
  reqs : ∀ sid, get s.reqs sid = reqIn l sid
  reqKeys : (s.reqs.map (·.1)).Nodup
  reqLock : s.reqLock = reqLockIn l
  made : ∀ r sid, Made l r sid → r < s.nextRq
  old : ∀ r, r < s.nextRq → ∃ sid, Made l r sid
  status : ∀ r, s.status r = statusIn l r
  obs : ∀ r, s.obs r = obsIn l r
  obsLock : ∀ r, s.obsLock r = obsLockIn l r
  server : s.server = serverIn l

theorem abs_init : Abs init [] := by
  constructor <;> simp [init, mapIn, mapLockIn, reqIn, reqLockIn, statusIn, obsIn, obsLockIn, serverIn, get, Made]

theorem mapIn_one (l : List Event) (e : Event) (s : Sid) : mapIn (l ++ [e]) s = mapStep s (mapIn l s) e := by simp [mapIn, List.foldl_append]
theorem mapLockIn_one (l : List Event) (e : Event) : mapLockIn (l ++ [e]) = mapLockStep (mapLockIn l) e := by simp [mapLockIn, List.foldl_append]
theorem reqIn_one (l : List Event) (e : Event) (s : Sid) : reqIn (l ++ [e]) s = reqStep s (reqIn l s) e := by simp [reqIn, List.foldl_append]
theorem reqLockIn_one (l : List Event) (e : Event) : reqLockIn (l ++ [e]) = reqLockStep (reqLockIn l) e := by simp [reqLockIn, List.foldl_append]
theorem statusIn_one (l : List Event) (e : Event) (r : Rq) : statusIn (l ++ [e]) r = statusStep r (statusIn l r) e := by simp [statusIn, List.foldl_append]
theorem obsIn_one (l : List Event) (e : Event) (r : Rq) : obsIn (l ++ [e]) r = obsStep r (obsIn l r) e := by simp [obsIn, List.foldl_append]
theorem obsLockIn_one (l : List Event) (e : Event) (r : Rq) : obsLockIn (l ++ [e]) r = obsLockStep r (obsLockIn l r) e := by simp [obsLockIn, List.foldl_append]
theorem serverIn_one (l : List Event) (e : Event) : serverIn (l ++ [e]) = serverStep (serverIn l) e := by simp [serverIn, List.foldl_append]

theorem made_one {l : List Event} {e : Event} {r : Rq} {sid : Sid} : Made (l ++ [e]) r sid ↔ Made l r sid ∨ ∃ n st, e = .did n (.getReq sid) (r, some st) := by
  simp only [Made, List.mem_append, List.mem_singleton, eq_comm (a := e)]
  constructor
  · rintro ⟨n, st, h | h⟩
    · exact .inl ⟨n, st, h⟩
    · exact .inr ⟨n, st, h⟩
  · rintro (⟨n, st, h⟩ | ⟨n, st, h⟩)
    · exact ⟨n, st, .inl h⟩
    · exact ⟨n, st, .inr h⟩

/-- The fields an event leaves as they are. -/
macro "keep" h:ident : tactic => `(tactic| (
  (try intros)
  (try simp only [mapIn_one, mapLockIn_one, reqIn_one, reqLockIn_one, statusIn_one, obsIn_one, obsLockIn_one, serverIn_one])
  first
    | exact ($h).map _ | exact ($h).mapKeys | exact ($h).mapLock | exact ($h).reqs _ | exact ($h).reqKeys | exact ($h).reqLock | exact ($h).status _ | exact ($h).obs _ | exact ($h).obsLock _ | exact ($h).server
    | (next hm => rcases made_one.1 hm with hm | ⟨_, _, hm⟩; exact ($h).made _ _ hm; cases hm)
    | (next hm => obtain ⟨sid, hm⟩ := ($h).old _ hm; exact ⟨sid, made_one.2 (.inl hm)⟩)))

/-- Events that change nothing. -/
theorem Abs.skip {s : Sh} {l : List Event} (h : Abs s l) {e : Event} (he : ∀ n q a, e ≠ .did n q a) : Abs s (l ++ [e]) := by
  cases e with
  | did n q a => exact absurd rfl (he n q a)
  | _ => constructor <;> keep h

theorem exec_ok {s s' : Sh} {l : List Event} (h : Abs s l) {n : Nat} {q : Query} {e : Out} {a : Ans q} (hx : exec s n q e = some (a, s')) :
    EvOk l (.did n q a) ∧ Abs s' (l ++ [.did n q a]) := by
  cases q with
  | store sid st =>
    simp only [exec] at hx
    split at hx <;> cases hx
    next hl =>
    refine ⟨by rw [EvOk, ← h.mapLock, hl], ?_⟩
    constructor <;> try keep h
    · intro sid'; rw [mapIn_one]; simp only [mapStep, get_put, h.map]
    · exact put_keys h.mapKeys _ _
  | clearMap =>
    simp only [exec] at hx
    split at hx <;> cases hx
    next hl =>
    refine ⟨by rw [EvOk, ← h.mapLock, hl], ?_⟩
    constructor <;> try keep h
    · intro sid'; rw [mapIn_one]; rfl
    · simp
  | read sid =>
    simp only [exec] at hx
    split at hx <;> cases hx
    next hl => exact ⟨⟨h.map sid, by rw [← h.mapLock, hl]⟩, by constructor <;> keep h⟩
  | lockMap =>
    simp only [exec] at hx
    split at hx <;> cases hx
    next hl =>
    refine ⟨⟨fun sid => by rw [get_keys, h.map], h.mapKeys, by rw [← h.mapLock, hl]⟩, ?_⟩
    constructor <;> try keep h
    rw [mapLockIn_one]; rfl
  | unlockMap =>
    cases hx
    refine ⟨trivial, ?_⟩
    constructor <;> try keep h
    · intro sid'; rw [mapIn_one]; rfl
    · simp
    · rw [mapLockIn_one]; rfl
  | getReq sid =>
    simp only [exec] at hx
    split at hx
    · next hl =>
      split at hx
      · next r hr =>
        cases hx
        exact ⟨⟨by rw [← h.reqs, hr], by rw [← h.reqLock, hl]⟩, by constructor <;> keep h⟩
      · next hr =>
        split at hx <;> cases hx
        next hm =>
        refine ⟨⟨by rw [← h.reqs, hr], fun s' hs' => absurd (h.made _ _ hs') (Nat.lt_irrefl _), by rw [h.map], by rw [← h.reqLock, hl]⟩, ?_⟩
        constructor <;> try keep h
        · intro sid'; rw [reqIn_one]; simp only [reqStep, get_snoc _ _ _ _ hr, h.reqs]
        · show ((s.reqs ++ [(sid, s.nextRq)]).map (·.1)).Nodup
          rw [List.map_append, List.nodup_append]
          refine ⟨h.reqKeys, by simp, ?_⟩
          intro x hx y hy
          simp at hy
          subst hy
          rintro rfl
          exact get_keys.1 hx hr
        · intro r sid' hm
          rcases made_one.1 hm with hm | ⟨n', st', hm⟩
          · exact Nat.lt_succ_of_lt (h.made _ _ hm)
          · cases hm; exact Nat.lt_succ_self _
        · intro r hr'
          rcases Nat.lt_succ_iff_lt_or_eq.1 hr' with hr' | rfl
          · obtain ⟨sid', hm⟩ := h.old r hr'
            exact ⟨sid', made_one.2 (.inl hm)⟩
          · exact ⟨sid, made_one.2 (.inr ⟨n, _, rfl⟩)⟩
        · intro r
          rw [statusIn_one]
          simp only [statusStep, upd, h.status, eq_comm]
    · cases hx
  | hasReq sid =>
    simp only [exec] at hx
    split at hx <;> cases hx
    next hl => exact ⟨⟨by rw [h.reqs, Option.isSome_iff_ne_none], by rw [← h.reqLock, hl]⟩, by constructor <;> keep h⟩
  | findReq sid =>
    simp only [exec] at hx
    split at hx <;> cases hx
    next hl => exact ⟨⟨h.reqs sid, by rw [← h.reqLock, hl]⟩, by constructor <;> keep h⟩
  | lockReq sid =>
    simp only [exec] at hx
    split at hx <;> cases hx
    next hl =>
    refine ⟨⟨h.reqs sid, by rw [← h.reqLock, hl]⟩, ?_⟩
    constructor <;> try keep h
    rw [reqLockIn_one]; rfl
  | lockReqs =>
    simp only [exec] at hx
    split at hx <;> cases hx
    next hl =>
    refine ⟨⟨fun sid r => by rw [get_mem h.reqKeys, h.reqs], h.reqKeys, by rw [← h.reqLock, hl]⟩, ?_⟩
    constructor <;> try keep h
    rw [reqLockIn_one]; rfl
  | unlockReqs =>
    cases hx
    refine ⟨trivial, ?_⟩
    constructor <;> try keep h
    rw [reqLockIn_one]; rfl
  | forgetReqs =>
    cases hx
    refine ⟨trivial, ?_⟩
    constructor <;> try keep h
    · intro sid; rw [reqIn_one]; rfl
    · simp
  | status r =>
    cases hx
    exact ⟨h.status r, by constructor <;> keep h⟩
  | check r =>
    cases hx
    exact ⟨h.status r, by constructor <;> keep h⟩
  | setStatus r st =>
    cases hx
    refine ⟨trivial, ?_⟩
    constructor <;> try keep h
    intro r'
    rw [statusIn_one]
    simp only [statusStep, upd, h.status, eq_comm]
  | addObs r o =>
    simp only [exec] at hx
    split at hx <;> cases hx
    next hl =>
    refine ⟨⟨h.status r, by rw [← h.obsLock, hl.1], h.old r hl.2⟩, ?_⟩
    constructor <;> try keep h
    intro r'
    rw [obsIn_one]
    simp only [obsStep, upd, ← h.obs]
    by_cases e : r' = r
    · subst e; simp
    · rw [if_neg (Ne.symm e), if_neg e]
  | removeObs r o =>
    simp only [exec] at hx
    split at hx <;> cases hx
    next hl =>
    refine ⟨by rw [EvOk, ← h.obsLock, hl.1], ?_⟩
    constructor <;> try keep h
    intro r'
    rw [obsIn_one]
    simp only [obsStep, upd, ← h.obs]
    by_cases e : r' = r
    · subst e; simp
    · rw [if_neg (Ne.symm e), if_neg e]
  | lockObs r =>
    simp only [exec] at hx
    split at hx <;> cases hx
    next hl =>
    refine ⟨⟨h.obs r, by rw [← h.obsLock, hl]⟩, ?_⟩
    constructor <;> try keep h
    intro r'
    rw [obsLockIn_one]
    simp only [obsLockStep, upd, ← h.obsLock, eq_comm]
  | unlockObs r os =>
    cases hx
    refine ⟨trivial, ?_⟩
    constructor <;> try keep h
    · intro r'
      rw [obsIn_one]
      simp only [obsStep, upd, ← h.obs, eq_comm]
    · intro r'
      rw [obsLockIn_one]
      simp only [obsLockStep, upd, ← h.obsLock, eq_comm]
  | server =>
    cases hx
    exact ⟨h.server, by constructor <;> keep h⟩
  | setServer st =>
    cases hx
    refine ⟨trivial, ?_⟩
    constructor <;> try keep h
    rw [serverIn_one]; rfl
  | _ =>
    cases hx
    exact ⟨trivial, by constructor <;> keep h⟩

/-- All that is known of a reachable state. -/
structure Good (s : St) : Prop where
  inv : Inv s
  abs : Abs s.sh s.log
  hist : Hist EvOk s.log

theorem good_step {s s' : St} (h : Good s) (hs : Steps s s') : Good s' := by
  refine ⟨inv_step h.inv hs, ?_, ?_⟩
  · cases hs with
    | call c => exact h.abs.skip (by simp)
    | ret n r => exact h.abs.skip (by simp)
    | crash n => exact h.abs.skip (by simp)
    | did n q k e a sh hu hp hx => exact (exec_ok h.abs hx).2
  · cases hs with
    | call c => exact h.hist.one trivial
    | ret n r => exact h.hist.one trivial
    | crash n => exact h.hist.one trivial
    | did n q k e a sh hu hp hx => exact h.hist.one (exec_ok h.abs hx).1

theorem good_run {as : List (Act sys)} {s : St} (hr : run (Calls.init sys) as = some s) : Good s :=
  run_induct (S := sys) (I := Good) ⟨inv_init, abs_init, Hist.nil⟩ (fun _ _ => good_step) hr

/-- A reachable history. -/
abbrev Run (l : List Event) : Prop := ∃ as s, run (Calls.init sys) as = some s ∧ s.log = l

theorem Run.left {l r : List Event} (h : Run (l ++ r)) : Run l := by
  obtain ⟨as, s, hr, hl⟩ := h
  exact run_prefix hr hl

theorem Run.hist {l : List Event} (h : Run l) : Hist EvOk l := by
  obtain ⟨as, s, hr, rfl⟩ := h
  exact (good_run hr).hist

theorem Run.ok {l r : List Event} {e : Event} (h : Run (l ++ e :: r)) : EvOk l e := h.hist.all l e r rfl

end Maf.Cli
