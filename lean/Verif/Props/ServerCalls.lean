import Verif.Props.ServerProvider
/-
C72: what the calls of a server do.
-/
namespace Maf.Srv
open Maf.Calls

/-- Who call `n` stops, in turn. -/
def stopsBy (n : Nat) (l : List Event) : List Pr := l.filterMap fun
  | .did k (.setAvail p b) _ => if k = n ∧ b = false then some p else none
  | _ => none

/-- Who call `n` starts, in turn. -/
def startsBy (n : Nat) (l : List Event) : List Pr := l.filterMap fun
  | .did k (.setAvail p b) _ => if k = n ∧ b = true then some p else none
  | _ => none

/-- Who call `n` deinitialises, in turn. -/
def endsBy (n : Nat) (l : List Event) : List Pr := l.filterMap fun
  | .did k (.deinitProv p) _ => if k = n then some p else none
  | _ => none

/-- What call `n` gives to providers, in turn. -/
def givenBy (n : Nat) (l : List Event) : List (Pr × Msg) := l.filterMap fun
  | .did k (.deliver p m) _ => if k = n then some (p, m) else none
  | _ => none

/-! ### The same of a call's operations -/

def stops (l : List (Op Query Ans)) : List Pr := l.filterMap fun | ⟨.setAvail p b, _⟩ => if b = false then some p else none | _ => none
def starts (l : List (Op Query Ans)) : List Pr := l.filterMap fun | ⟨.setAvail p b, _⟩ => if b = true then some p else none | _ => none
def ends (l : List (Op Query Ans)) : List Pr := l.filterMap fun | ⟨.deinitProv p, _⟩ => some p | _ => none
def given (l : List (Op Query Ans)) : List (Pr × Msg) := l.filterMap fun | ⟨.deliver p m, _⟩ => some (p, m) | _ => none

theorem opsOf_fm {β : Type} {n : Nat} {f : Op Query Ans → Option β} {g : Event → Option β}
    (h1 : ∀ q a, g (.did n q a) = f ⟨q, a⟩) (h2 : ∀ e, (∀ q a, e ≠ .did n q a) → g e = none) (l : List Event) :
    l.filterMap g = (opsOf n l).filterMap f := by
  induction l with
  | nil => rfl
  | cons e l ih =>
    have hc : opsOf n (e :: l) = opsOf n [e] ++ opsOf n l := by
      show allOps (S := sys) (trace (S := sys) n ([e] ++ l)) = _
      rw [trace, List.filter_append, allOps_append]; rfl
    rw [hc, List.filterMap_append, ← List.singleton_append, List.filterMap_append, ih]
    congr 1
    by_cases he : ∃ q a, e = .did n q a
    · obtain ⟨q, a, rfl⟩ := he
      have : opsOf n [.did n q a] = [⟨q, a⟩] := by simp [opsOf, trace, Ev.cid, allOps]
      rw [this, List.filterMap_cons, List.filterMap_cons, h1]; rfl
    · have : opsOf n [e] = [] := by
        cases e with
        | did k q a =>
          have hk : k ≠ n := by rintro rfl; exact he ⟨q, a, rfl⟩
          simp [opsOf, trace, Ev.cid, allOps, hk]
        | called k c => by_cases hk : k = n <;> simp [opsOf, trace, Ev.cid, allOps, hk]
        | returned k c => by_cases hk : k = n <;> simp [opsOf, trace, Ev.cid, allOps, hk]
        | crashed k => by_cases hk : k = n <;> simp [opsOf, trace, Ev.cid, allOps, hk]
      rw [this]; simp [h2 e (fun q a hx => he ⟨q, a, hx⟩)]

theorem stopsBy_ops (n : Nat) (l : List Event) : stopsBy n l = stops (opsOf n l) := by
  refine opsOf_fm (fun q a => ?_) (fun e he => ?_) l
  · cases q <;> simp
  · cases e with
    | did k q a =>
      have hk : k ≠ n := by rintro rfl; exact he q a rfl
      cases q <;> simp [hk]
    | _ => rfl
theorem startsBy_ops (n : Nat) (l : List Event) : startsBy n l = starts (opsOf n l) := by
  refine opsOf_fm (fun q a => ?_) (fun e he => ?_) l
  · cases q <;> simp
  · cases e with
    | did k q a =>
      have hk : k ≠ n := by rintro rfl; exact he q a rfl
      cases q <;> simp [hk]
    | _ => rfl
theorem endsBy_ops (n : Nat) (l : List Event) : endsBy n l = ends (opsOf n l) := by
  refine opsOf_fm (fun q a => ?_) (fun e he => ?_) l
  · cases q <;> simp
  · cases e with
    | did k q a =>
      have hk : k ≠ n := by rintro rfl; exact he q a rfl
      cases q <;> simp [hk]
    | _ => rfl
theorem givenBy_ops (n : Nat) (l : List Event) : givenBy n l = given (opsOf n l) := by
  refine opsOf_fm (fun q a => ?_) (fun e he => ?_) l
  · cases q <;> simp
  · cases e with
    | did k q a =>
      have hk : k ≠ n := by rintro rfl; exact he q a rfl
      cases q <;> simp [hk]
    | _ => rfl

@[simp] theorem stops_app (a b : List (Op Query Ans)) : stops (a ++ b) = stops a ++ stops b := by simp [stops]
@[simp] theorem starts_app (a b : List (Op Query Ans)) : starts (a ++ b) = starts a ++ starts b := by simp [starts]
@[simp] theorem ends_app (a b : List (Op Query Ans)) : ends (a ++ b) = ends a ++ ends b := by simp [ends]
@[simp] theorem given_app (a b : List (Op Query Ans)) : given (a ++ b) = given a ++ given b := by simp [given]

/-- Neither stops, nor starts, nor ends a provider, nor gives it anything. -/
def Idle (l : List (Op Query Ans)) : Prop := stops l = [] ∧ starts l = [] ∧ ends l = [] ∧ given l = []

theorem tellAll_idle {sid : Sid} {b : Bool} {as ks : List Addr} {ops : List (Op Query Ans)} (h : Path (tellAll sid b as) ops (.ret ks)) : Idle ops := by
  induction as generalizing ops ks with
  | nil => simp only [tellAll, path_pure] at h; rw [h.1]; exact ⟨rfl, rfl, rfl, rfl⟩
  | cons a as ih =>
    simp only [tellAll, atom, ask_bind, path_ask_ret] at h
    obtain ⟨o, l, rfl, h⟩ := h
    have : Idle l := by
      cases o with
      | lost => exact ih h
      | ok =>
        simp only [path_bind_ret, path_pure] at h
        obtain ⟨l1, l2, x, rfl, h1, rfl, -⟩ := h
        rw [List.append_nil]; exact ih h1
      | failed =>
        simp only [path_bind_ret, path_pure] at h
        obtain ⟨l1, l2, x, rfl, h1, rfl, -⟩ := h
        rw [List.append_nil]; exact ih h1
    exact this

theorem serve_does {p : Pr} {b : Bool} {ops : List (Op Query Ans)} (h : Path (serve p b) ops (.ret ())) :
    ∃ sid l, ops = ⟨.setAvail p b, sid⟩ :: l ∧ Idle l := by
  simp only [serve, onServiceStatusChanged, notifyAll, atom, ask_bind, path_ask_ret] at h
  obtain ⟨sid, l, rfl, f, l', rfl, h⟩ := h
  refine ⟨sid, _, rfl, ?_⟩
  split at h
  · simp only [path_ask_ret, path_bind_ret, ask] at h
    obtain ⟨as, l1, rfl, l2, l3, ks, rfl, h1, u, l4, rfl, h2⟩ := h
    simp only [path_ret] at h2
    rw [h2.1]
    have := tellAll_idle h1
    obtain ⟨a1, a2, a3, a4⟩ := this
    refine ⟨?_, ?_, ?_, ?_⟩
    · show stops (l2 ++ [⟨.unlockAddrs ks, u⟩]) = []; rw [stops_app, a1]; rfl
    · show starts (l2 ++ [⟨.unlockAddrs ks, u⟩]) = []; rw [starts_app, a2]; rfl
    · show ends (l2 ++ [⟨.unlockAddrs ks, u⟩]) = []; rw [ends_app, a3]; rfl
    · show given (l2 ++ [⟨.unlockAddrs ks, u⟩]) = []; rw [given_app, a4]; rfl
  · simp only [path_pure] at h; rw [h.1]; exact ⟨rfl, rfl, rfl, rfl⟩

theorem stopAll_does {ps : List (Sid × Pr)} {ops : List (Op Query Ans)} (h : Path (stopAll ps) ops (.ret ())) :
    stops ops = ps.map (·.2) ∧ starts ops = [] ∧ ends ops = [] := by
  induction ps generalizing ops with
  | nil => simp only [stopAll, path_pure] at h; rw [h.1]; exact ⟨rfl, rfl, rfl⟩
  | cons x ps ih =>
    simp only [stopAll, path_bind_ret] at h
    obtain ⟨l1, l2, u, rfl, h1, h2⟩ := h
    obtain ⟨sid, l, rfl, i1, i2, i3, -⟩ := serve_does h1
    obtain ⟨j1, j2, j3⟩ := ih h2
    refine ⟨?_, ?_, ?_⟩
    · rw [stops_app, j1]
      show x.2 :: stops l ++ _ = _
      rw [i1]; rfl
    · rw [starts_app, j2, List.append_nil]; exact i2
    · rw [ends_app, j3, List.append_nil]; exact i3

theorem deinitAll_does {ps : List (Sid × Pr)} {ops : List (Op Query Ans)} (h : Path (deinitAll ps) ops (.ret ())) :
    ends ops = ps.map (·.2) ∧ stops ops = [] ∧ starts ops = [] := by
  induction ps generalizing ops with
  | nil => simp only [deinitAll, path_pure] at h; rw [h.1]; exact ⟨rfl, rfl, rfl⟩
  | cons x ps ih =>
    simp only [deinitAll, atom, ask_bind, path_ask_ret] at h
    obtain ⟨u, l, rfl, h⟩ := h
    obtain ⟨j1, j2, j3⟩ := ih h
    exact ⟨by show x.2 :: ends l = _; rw [j1]; rfl, j2, j3⟩

theorem forwardAll_does {a : Addr} {ps : List (Sid × Pr)} {ops : List (Op Query Ans)} (h : Path (forwardAll a ps) ops (.ret ())) :
    given ops = ps.map fun x => (x.2, .unregister a (some x.1)) := by
  induction ps generalizing ops with
  | nil => simp only [forwardAll, path_pure] at h; rw [h.1]; rfl
  | cons x ps ih =>
    simp only [forwardAll, atom, ask_bind, path_ask_ret] at h
    obtain ⟨u, l, rfl, h⟩ := h
    show (x.2, _) :: given l = _
    rw [ih h]; rfl

/-! ### C72 -/

/-- C72: the end of a server: at one moment it gives up all its providers; then it stops each of them, once; when all are stopped, it deinitialises each of them, once. -/
theorem end_complete {l : List Event} (h : Run l) {n : Nat} {x : Res} (hc : .called n .deinit ∈ l) (hx : .returned n x ∈ l) :
    ∃ l1 l2 l3 ps, l = l1 ++ .did n .takeProvs ps :: l2 ++ l3 ∧ (∀ sid p, (sid, p) ∈ ps ↔ provIn l1 sid = some p) ∧ (ps.map (·.1)).Nodup ∧
      stopsBy n l2 = ps.map (·.2) ∧ endsBy n l2 = [] ∧ stopsBy n l3 = [] ∧ endsBy n l3 = ps.map (·.2) ∧ startsBy n l = [] := by
  have hp := ops_path h hc hx
  simp only [prog, deinit, path_bind_ret, atom, ask_bind, path_ask_ret] at hp
  obtain ⟨m1, m2, u, h1, ⟨ps, m3, rfl, m4, m5, u', rfl, h2, h3⟩, h4⟩ := hp
  simp only [path_pure] at h4
  obtain ⟨rfl, -⟩ := h4
  rw [List.append_nil] at h1
  obtain ⟨i1, i2, i3⟩ := stopAll_does h2
  obtain ⟨j1, j2, j3⟩ := deinitAll_does h3
  obtain ⟨y, z, hl, hy, hz⟩ := ops_split (X := []) (by rw [h1]; rfl)
  have hsplit : ∃ z1 z2, z = z1 ++ z2 ∧ opsOf n z1 = m4 ∧ opsOf n z2 = m5 := by
    obtain ⟨t1, t2, ht, k1, k2⟩ := List.filterMap_eq_append_iff.1 hz
    obtain ⟨z1, z2, hz', k3, k4⟩ := List.filter_eq_append_iff.1 ht
    refine ⟨z1, z2, hz', ?_, ?_⟩
    · show allOps (S := sys) (trace (S := sys) n z1) = m4; rw [show trace (S := sys) n z1 = t1 from k3]; exact k1
    · show allOps (S := sys) (trace (S := sys) n z2) = m5; rw [show trace (S := sys) n z2 = t2 from k4]; exact k2
  obtain ⟨z1, z2, rfl, hz1, hz2⟩ := hsplit
  have hk : EvOk y (.did n .takeProvs ps) := by rw [hl] at h; exact h.ok
  refine ⟨y, z1, z2, ps, by rw [hl]; simp, hk.1, hk.2.1, ?_, ?_, ?_, ?_, ?_⟩
  · rw [stopsBy_ops, hz1]; exact i1
  · rw [endsBy_ops, hz1]; exact i3
  · rw [stopsBy_ops, hz2]; exact j2
  · rw [endsBy_ops, hz2]; exact j1
  · rw [startsBy_ops, h1]
    show starts (m4 ++ m5) = []
    rw [starts_app, i2, j3]; rfl

/-- C72: a client that unregisters for all services is forgotten, and then every provider that there is gets the unregistration for its own service, once; nothing else is given to providers. -/
theorem unregistered_everywhere {l : List Event} (h : Run l) {n : Nat} {a : Addr} {x : Res} (hc : .called n (.incoming (.unregister a none)) ∈ l) (hx : .returned n x ∈ l) :
    x = .bool true ∧ ∃ l0 l1 l2 ps, l = l0 ++ .did n (.dropAddr a) () :: l1 ++ .did n .lockProvs ps :: l2 ∧
      (∀ sid p, (sid, p) ∈ ps ↔ provIn (l0 ++ .did n (.dropAddr a) () :: l1) sid = some p) ∧ (ps.map (·.1)).Nodup ∧
      a ∉ addrsIn (l0 ++ [.did n (.dropAddr a) ()]) ∧
      givenBy n l = ps.map fun y => (y.2, .unregister a (some y.1)) := by
  have hp := ops_path h hc hx
  simp only [prog, onIncomingMessage, path_bind_ret, atom, ask_bind, path_ask_ret] at hp
  obtain ⟨m1, m2, b, h1, ⟨u, m3, rfl, ps, m4, rfl, m5, m6, u', rfl, h2, u2, m7, rfl, h3⟩, h4⟩ := hp
  simp only [path_pure, Prog.ret.injEq] at h3 h4
  obtain ⟨rfl, rfl⟩ := h3
  obtain ⟨rfl, rfl⟩ := h4
  refine ⟨rfl, ?_⟩
  rw [List.append_nil] at h1
  obtain ⟨y, z, hl, hy, hz⟩ := ops_split (X := []) (by rw [h1]; rfl)
  obtain ⟨z1, z2, rfl, hz1, hz2⟩ := ops_split (X := []) (by rw [hz]; rfl)
  have hl' : l = (y ++ .did n (.dropAddr a) () :: z1) ++ .did n .lockProvs ps :: z2 := by rw [hl]; simp
  have hk : EvOk (y ++ .did n (.dropAddr a) () :: z1) (.did n .lockProvs ps) := by rw [hl'] at h; exact h.ok
  refine ⟨y, z1, z2, ps, hl', hk.1, hk.2.1, ?_, ?_⟩
  · simp [addrsIn, addrStep]
  · rw [givenBy_ops, h1]
    show given (m5 ++ [⟨.unlockProvs, u2⟩]) = _
    rw [given_app, forwardAll_does h2]
    show _ ++ [] = _
    rw [List.append_nil]

/-- C72: `availability` says whether the provider serves: whether what was last done to it is to start it. -/
theorem availability_is {l : List Event} (h : Run l) {n : Nat} {p : Pr} {x : Res} (hc : .called n (.availability p) ∈ l) (hx : .returned n x ∈ l) :
    ∃ l1 l2, l = l1 ++ .did n (.avail p) (availIn l1 p) :: l2 ∧ x = .bool (availIn l1 p) := by
  have hp := ops_path h hc hx
  simp only [prog, atom, ask_bind, path_ask_ret, path_pure, Prog.ret.injEq] at hp
  obtain ⟨b, l', h1, rfl, rfl⟩ := hp
  obtain ⟨y, z, hl, -, -⟩ := ops_split (X := []) (by rw [h1]; rfl)
  have hk : b = availIn y p := by rw [hl] at h; exact h.ok
  subst hk
  exact ⟨y, z, hl, rfl⟩

/-- C72: `startServing` starts its provider, once, and nobody else; `stopServing` stops it. -/
theorem serving_sets {l : List Event} (h : Run l) {n : Nat} {p : Pr} {b : Bool} {x : Res} (hc : .called n (if b then .startServing p else .stopServing p) ∈ l) (hx : .returned n x ∈ l) :
    startsBy n l = (if b then [p] else []) ∧ stopsBy n l = (if b then [] else [p]) ∧ endsBy n l = [] := by
  have hp := ops_path h hc hx
  have hp' : ∃ m1, opsOf n l = m1 ∧ Path (serve p b) m1 (.ret ()) := by
    cases b with
    | true =>
      simp only [if_true, prog, path_bind_ret, path_pure] at hp
      obtain ⟨m1, m2, u, h1, h2, rfl, -⟩ := hp
      exact ⟨m1, by rw [h1]; simp, h2⟩
    | false =>
      simp only [Bool.false_eq_true, if_false, prog, path_bind_ret, path_pure] at hp
      obtain ⟨m1, m2, u, h1, h2, rfl, -⟩ := hp
      exact ⟨m1, by rw [h1]; simp, h2⟩
  obtain ⟨m1, h1, h2⟩ := hp'
  obtain ⟨sid, m, rfl, i1, i2, i3, -⟩ := serve_does h2
  rw [startsBy_ops, stopsBy_ops, endsBy_ops, h1]
  cases b with
  | true => exact ⟨by show p :: starts m = _; rw [i2]; rfl, i1, i3⟩
  | false => exact ⟨i2, by show p :: stops m = _; rw [i1]; rfl, i3⟩

/-- Not vacuous: two providers, of which one is started; a client registers with both and unregisters for all services; then the server ends. -/
example : ∃ s, run (Calls.init sys) (.call (.getServiceProvider 1) :: go 0 2 ++ .call (.getServiceProvider 2) :: go 1 2 ++ .call (.startServing 0) :: go 2 5 ++ .call (.availability 0) :: go 3 2 ++
      .call (.incoming (.register 5)) :: go 4 7 ++ .call (.incoming (.unregister 5 none)) :: go 5 6 ++ .call .deinit :: go 6 8) = some s ∧
    .returned 3 (.bool true) ∈ s.log ∧ .returned 5 (.bool true) ∈ s.log ∧ givenBy 5 s.log = [(0, .unregister 5 (some 1)), (1, .unregister 5 (some 2))] ∧
    startsBy 2 s.log = [0] ∧ stopsBy 6 s.log = [0, 1] ∧ endsBy 6 s.log = [0, 1] ∧ .returned 6 .unit ∈ s.log := by
  refine ⟨_, rfl, by decide, by decide, by decide, by decide, by decide, by decide, by decide⟩

end Maf.Srv
