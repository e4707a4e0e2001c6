import Verif.Lemmas.ClientObserve
/-
C42 (observers), C43 (clients).
-/
namespace Maf.Cli
open Maf.Calls

/-! ### C42 -/

/-- C42: a change of the status of a requester is a change. -/
theorem change_is_change {l r : List Event} {n : Nat} {q : Rq} {st : Avail} {u : Unit} (h : Run (l ++ .did n (.setStatus q st) u :: r)) : st ≠ statusIn l q := by
  have hw := winv h
  obtain ⟨cur, ho, hne⟩ := work_ok h (q := .setStatus q st) (fun h => h)
  rw [ho] at hw
  rw [hw.1]; exact hne

/-- C42: the status an observer is told is the one the requester has. -/
theorem told_is_status {l r : List Event} {n : Nat} {q : Rq} {o : Obs} {old new : Avail} {a : Out} (h : Run (l ++ .did n (.tell q o old new) a :: r)) : new = statusIn l q := by
  have hw := winv h
  obtain ⟨cur, os, ks, ho⟩ := work_ok h (q := .tell q o old new) (fun h => h)
  rw [ho] at hw
  exact hw.1.symm

/-- The changes of a requester's status after a moment, one after the other, differ each from the one before. -/
theorem changes_alternate {l m : List Event} {q : Rq} {sid : Sid} (hm : Made l q sid) (h : Run (l ++ m)) :
    Alternate (statusIn l q) (changesIn q m) ∧ statusIn (l ++ m) q = ((changesIn q m).getLast?).getD (statusIn l q) := by
  have key : ∀ m, Run (l ++ m) → statusIn (l ++ m) q = ((changesIn q m).getLast?).getD (statusIn l q) ∧
      ∀ x, Alternate (statusIn l q) (changesIn q m ++ x) ↔ Alternate (statusIn (l ++ m) q) x := by
    intro m
    refine snoc_induct (motive := fun m => Run (l ++ m) → statusIn (l ++ m) q = ((changesIn q m).getLast?).getD (statusIn l q) ∧
      ∀ x, Alternate (statusIn l q) (changesIn q m ++ x) ↔ Alternate (statusIn (l ++ m) q) x) ?_ ?_ m
    · intro _; exact ⟨by simp [changesIn], fun x => by simp [changesIn]⟩
    · intro m e ih h
      have h' : Run ((l ++ m) ++ e :: []) := by simpa using h
      have ih := ih h'.left
      have hs : statusIn (l ++ (m ++ [e])) q = statusStep q (statusIn (l ++ m) q) e := by rw [← List.append_assoc, statusIn_one]
      have skip : changesIn q [e] = [] → statusStep q (statusIn (l ++ m) q) e = statusIn (l ++ m) q → statusIn (l ++ (m ++ [e])) q = ((changesIn q (m ++ [e])).getLast?).getD (statusIn l q) ∧
          ∀ x, Alternate (statusIn l q) (changesIn q (m ++ [e]) ++ x) ↔ Alternate (statusIn (l ++ (m ++ [e])) q) x := by
        intro h1 h2
        rw [hs, h2, changesIn_append, h1, List.append_nil]; exact ih
      cases e with
      | did n op a =>
        cases op
        case setStatus q' st =>
          by_cases hq : q' = q
          · subst hq
            have hne := change_is_change h'
            have hc : changesIn q' [Ev.did n (.setStatus q' st) a] = [st] := by simp [changesIn]
            rw [hs, changesIn_append, hc]
            refine ⟨by simp [statusStep], fun x => ?_⟩
            rw [List.append_assoc, ih.2]
            simp [statusStep, Alternate, hne]
          · exact skip (by simp [changesIn, hq]) (by simp [statusStep, hq])
        case getReq sid' =>
          obtain ⟨q', y⟩ := a
          cases y with
          | none => exact skip rfl rfl
          | some st =>
            have hk := h'.ok
            refine skip rfl ?_
            have : q' ≠ q := by
              rintro rfl
              refine hk.2.1 sid ?_
              obtain ⟨n, st, hm⟩ := hm
              exact ⟨n, st, by simp [hm]⟩
            simp [statusStep, this]
        all_goals exact skip rfl rfl
      | _ => exact skip rfl rfl
  obtain ⟨h1, h2⟩ := key m h
  refine ⟨?_, h1⟩
  have := (h2 []).2 trivial
  simpa using this

/-- C42: an observer is told every change of the status exactly once, in order, and nothing else. It is registered when the status is `a`; it was not registered before; it is neither registered again nor
unregistered, and it does not throw. Then what it is told, but for a last change it is still to be told (`s`), is the changes since, after one, at most, that was already being
worked off (`p`): that one made the status what it was. If no notification was being worked off when it was registered there is no `p`, and if none is at the end there is no `s`. -/
theorem observer_told {l m : List Event} {n : Nat} {r : Rq} {o : Obs} {a : Avail} (hrun : Run (l ++ .did n (.addObs r o) a :: m)) (hnew : o ∉ obsIn l r)
    (hadd : ∀ n a, .did n (.addObs r o) a ∉ m) (hrem : ∀ n a, .did n (.removeObs r o) a ∉ m) (hok : ∀ n old new a, .did n (.tell r o old new) a ∈ m → a = .ok) :
    ∃ p s, toldIn r o m ++ s = p ++ changesIn r m ∧ p.length ≤ 1 ∧ s.length ≤ 1 ∧ (∀ x ∈ p, x = a) ∧ (reqLockIn l = none → p = []) ∧ (reqLockIn (l ++ .did n (.addObs r o) a :: m) = none → s = []) := by
  have h := (told_rest (z := []) (by simpa using hrun) hnew hadd hrem hok).1
  refine ⟨_, _, h, owed_short .., owed_short .., ?_, ?_, ?_⟩
  · intro x hx
    have hw := winv hrun
    have hk := hrun.ok
    cases hy : work l with
    | set r' cur st d =>
      rw [hy] at hx hw
      simp only [owed] at hx
      split at hx
      · next hr => subst hr; simp at hx; subst hx; rw [hk.1]; exact hw.1.symm
      · cases hx
    | telling r' cur st q ks =>
      rw [hy] at hx hw
      simp only [owed] at hx
      split at hx
      · next hr => obtain ⟨rfl, -⟩ := hr; exact absurd hk.2.1 hw.2.2.1
      · cases hx
    | _ => rw [hy] at hx; cases hx
  · intro hf; rw [(work_free hrun.left).1 hf]; rfl
  · intro hf; rw [(work_free hrun).1 hf]; rfl

/-- C42: so, if no notification is being worked off when it is registered, nor now, it was told exactly the changes; each differs from the one before; the last is the status, and
if it was told nothing the status is what it was. -/
theorem observer_told_exact {l m : List Event} {n : Nat} {r : Rq} {o : Obs} {a : Avail} (hrun : Run (l ++ .did n (.addObs r o) a :: m)) (hnew : o ∉ obsIn l r)
    (hadd : ∀ n a, .did n (.addObs r o) a ∉ m) (hrem : ∀ n a, .did n (.removeObs r o) a ∉ m) (hok : ∀ n old new a, .did n (.tell r o old new) a ∈ m → a = .ok)
    (h0 : reqLockIn l = none) (h1 : reqLockIn (l ++ .did n (.addObs r o) a :: m) = none) :
    toldIn r o m = changesIn r m ∧ a = statusIn l r ∧ Alternate a (toldIn r o m) ∧ statusIn (l ++ .did n (.addObs r o) a :: m) r = ((toldIn r o m).getLast?).getD a := by
  obtain ⟨p, s, h, -, -, -, hp, hs⟩ := observer_told hrun hnew hadd hrem hok
  rw [hp h0, hs h1, List.append_nil, List.nil_append] at h
  obtain ⟨ha, -, sid, hm⟩ := hrun.ok
  have := changes_alternate (l := l ++ [.did n (.addObs r o) a]) (m := m) (q := r) (sid := sid) (made_one.2 (.inl hm)) (by simpa using hrun)
  have hst : statusIn (l ++ [.did n (.addObs r o) a]) r = a := by rw [statusIn_one]; exact ha.symm
  rw [hst] at this
  refine ⟨h, ha, ?_, ?_⟩
  · rw [h]; exact this.1
  · rw [h, ← this.2]; simp

/-- What the observers of `r` are told in a history. -/
def tellsIn (r : Rq) (l : List Event) : List (Obs × Avail) := l.filterMap fun
  | .did _ (.tell r' o _ new) _ => if r' = r then some (o, new) else none
  | _ => none

/-- Who is told by a change. -/
theorem tells_rest {l m z : List Event} {n : Nat} {r : Rq} {os : List Obs} (hrun : Run (l ++ .did n (.lockObs r) os :: (m ++ z))) (hu : ∀ n ks a, .did n (.unlockObs r ks) a ∉ m) :
    ∃ cur q ks, work (l ++ .did n (.lockObs r) os :: m) = .telling r cur (statusIn l r) q ks ∧ os.map (·, statusIn l r) = tellsIn r m ++ q.map (·, statusIn l r) := by
  revert z
  refine snoc_induct (motive := fun m => (∀ n ks a, .did n (.unlockObs r ks) a ∉ m) → ∀ {z}, Run (l ++ .did n (.lockObs r) os :: (m ++ z)) →
    ∃ cur q ks, work (l ++ .did n (.lockObs r) os :: m) = .telling r cur (statusIn l r) q ks ∧ os.map (·, statusIn l r) = tellsIn r m ++ q.map (·, statusIn l r)) ?_ ?_ m hu
  · intro _ z h
    obtain ⟨cur, st, d, ho, -⟩ := work_ok h (q := .lockObs r) (fun h => h)
    have hw := winv h
    rw [ho] at hw
    have hst : statusIn l r = st := hw.1
    refine ⟨cur, os, [], ?_, by simp [tellsIn]⟩
    rw [work_one, ho, hst]; rfl
  · intro m e ih hu z h
    obtain ⟨cur, q, ks, hw, ht⟩ := ih (fun n ks a h => hu n ks a (by simp [h])) (z := e :: z) (by simpa using h)
    have h' : Run ((l ++ .did n (.lockObs r) os :: m) ++ e :: z) := by simpa using h
    rw [← List.cons_append, ← List.append_assoc]
    have happ : tellsIn r (m ++ [e]) = tellsIn r m ++ tellsIn r [e] := by simp [tellsIn]
    rw [happ]
    generalize hL : l ++ .did n (.lockObs r) os :: m = L at h' hw ⊢
    cases e with
    | did n' op b =>
      by_cases hn : fwNeutral ⟨op, b⟩
      · have hw' : work (L ++ [.did n' op b]) = work L := by rw [work_one]; exact (fw_locked.idle [] n' op b hn).1 _
        have hz : tellsIn r [.did n' op b] = [] := by cases op <;> first | rfl | exact hn.elim
        rw [hw', hz]
        exact ⟨cur, q, ks, hw, by simpa using ht⟩
      · have ho := work_ok h' hn
        rw [hw] at ho
        cases op
        case tell r' o old new =>
          obtain ⟨cur', q', ks', ho⟩ := ho
          simp only [Fw.telling.injEq] at ho
          obtain ⟨rfl, rfl, hst, rfl, rfl⟩ := ho
          refine ⟨cur, q', keepIf o ks b, by rw [work_one, hw]; rfl, ?_⟩
          rw [ht]
          simp [tellsIn, hst]
        case unlockObs r' ks' =>
          obtain ⟨cur', st', ho⟩ := ho
          simp only [Fw.telling.injEq] at ho
          obtain ⟨rfl, -⟩ := ho
          exact absurd (by simp) (hu n' ks' b)
        all_goals first
          | exact absurd trivial hn
          | simp [fwOk] at ho
    | called | returned | crashed =>
      rw [work_skip _ _ (by simp)]
      exact ⟨cur, q, ks, hw, by simpa [tellsIn] using ht⟩

/-- After a change, the first thing that is done with the observers is that all of them, as they are then, are about to be told it. -/
theorem change_locks {l m z : List Event} {n : Nat} {r : Rq} {st : Avail} {u : Unit} (hrun : Run (l ++ .did n (.setStatus r st) u :: (m ++ z))) (hno : ∀ n os, .did n (.lockObs r) os ∉ m) :
    (∃ cur d, work (l ++ .did n (.setStatus r st) u :: m) = .set r cur st d ∧ (d = true → ∃ k b, .did k (.drop r) b ∈ m)) ∧ tellsIn r m = [] := by
  revert z
  refine snoc_induct (motive := fun m => (∀ n os, .did n (.lockObs r) os ∉ m) → ∀ {z}, Run (l ++ .did n (.setStatus r st) u :: (m ++ z)) →
    (∃ cur d, work (l ++ .did n (.setStatus r st) u :: m) = .set r cur st d ∧ (d = true → ∃ k b, .did k (.drop r) b ∈ m)) ∧ tellsIn r m = []) ?_ ?_ m hno
  · intro _ z h
    obtain ⟨cur, ho, -⟩ := work_ok h (q := .setStatus r st) (fun h => h)
    exact ⟨⟨cur, false, by rw [work_one, ho]; rfl, by simp⟩, rfl⟩
  · intro m e ih hno z h
    obtain ⟨⟨cur, d, hw, hd⟩, ht⟩ := ih (fun n os h => hno n os (by simp [h])) (z := e :: z) (by simpa using h)
    have h' : Run ((l ++ .did n (.setStatus r st) u :: m) ++ e :: z) := by simpa using h
    rw [← List.cons_append, ← List.append_assoc]
    have happ : tellsIn r (m ++ [e]) = tellsIn r [e] := by simp [tellsIn] at ht ⊢; exact ht
    rw [happ]
    generalize hL : l ++ .did n (.setStatus r st) u :: m = L at h' hw ⊢
    cases e with
    | did n' op b =>
      by_cases hn : fwNeutral ⟨op, b⟩
      · have hw' : work (L ++ [.did n' op b]) = work L := by rw [work_one]; exact (fw_locked.idle [] n' op b hn).1 _
        have hz : tellsIn r [.did n' op b] = [] := by cases op <;> first | rfl | exact hn.elim
        rw [hw', hz]
        refine ⟨⟨cur, d, hw, fun h => ?_⟩, rfl⟩
        obtain ⟨k, b, hk⟩ := hd h
        exact ⟨k, b, by simp [hk]⟩
      · have ho := work_ok h' hn
        rw [hw] at ho
        cases op
        case drop r' =>
          obtain ⟨cur', ho⟩ := ho
          simp only [Fw.set.injEq] at ho
          obtain ⟨rfl, -⟩ := ho
          exact ⟨⟨cur, true, by rw [work_one, hw]; rfl, fun _ => ⟨n', b, by simp⟩⟩, rfl⟩
        case lockObs r' =>
          obtain ⟨cur', st', d', ho, -⟩ := ho
          simp only [Fw.set.injEq] at ho
          obtain ⟨rfl, -⟩ := ho
          exact absurd (by simp) (hno n' b)
        all_goals first
          | exact absurd trivial hn
          | simp [fwOk] at ho
    | called | returned | crashed =>
      rw [work_skip _ _ (by simp)]
      refine ⟨⟨cur, d, hw, fun h => ?_⟩, rfl⟩
      obtain ⟨k, b, hk⟩ := hd h
      exact ⟨k, b, by simp [hk]⟩

/-- C42: a change is told to all observers: from the change of the status to `st` to the end of the telling, the observers of the requester are told, in the order in which they registered, exactly once for
every registration, the new status; they are those that are registered when the telling begins. -/
theorem change_told_to_all {l m z : List Event} {n n' : Nat} {r : Rq} {st : Avail} {u v : Unit} {ks : List Obs} (hrun : Run (l ++ .did n (.setStatus r st) u :: (m ++ .did n' (.unlockObs r ks) v :: z)))
    (hu : ∀ n ks a, .did n (.unlockObs r ks) a ∉ m) : ∃ m1 k m2, m = m1 ++ .did k (.lockObs r) (obsIn (l ++ .did n (.setStatus r st) u :: m1) r) :: m2 ∧
      tellsIn r m = (obsIn (l ++ .did n (.setStatus r st) u :: m1) r).map (·, st) := by
  by_cases hno : ∃ k os, Ev.did k (.lockObs r) os ∈ m
  · -- the first time
    have first : ∀ m : List Event, (∃ k os, Ev.did k (.lockObs r) os ∈ m) → ∃ m1 k os m2, m = m1 ++ Ev.did k (.lockObs r) os :: m2 ∧ ∀ k os, Ev.did k (.lockObs r) os ∉ m1 := by
      intro m
      induction m with
      | nil => rintro ⟨k, os, h⟩; cases h
      | cons e m ih =>
        rintro ⟨k, os, h⟩
        by_cases he : ∃ k os, e = Ev.did k (.lockObs r) os
        · obtain ⟨k, os, rfl⟩ := he; exact ⟨[], k, os, m, rfl, by simp⟩
        · have h : Ev.did k (.lockObs r) os ∈ m := by
            rcases List.mem_cons.1 h with h | h
            · exact absurd ⟨k, os, h.symm⟩ he
            · exact h
          obtain ⟨m1, k', os', m2, rfl, h2⟩ := ih ⟨k, os, h⟩
          refine ⟨e :: m1, k', os', m2, rfl, fun k os hm => ?_⟩
          rcases List.mem_cons.1 hm with hm | hm
          · exact he ⟨k, os, hm.symm⟩
          · exact h2 k os hm
    obtain ⟨m1, k, os, m2, rfl, h1⟩ := first m hno
    obtain ⟨⟨cur, d, hw, -⟩, ht⟩ := change_locks (m := m1) (z := Ev.did k (.lockObs r) os :: (m2 ++ .did n' (.unlockObs r ks) v :: z)) (by simpa using hrun) h1
    have hrun' : Run ((l ++ .did n (.setStatus r st) u :: m1) ++ .did k (.lockObs r) os :: (m2 ++ .did n' (.unlockObs r ks) v :: z)) := by simpa using hrun
    obtain ⟨hos, -⟩ := hrun'.ok
    have hst : statusIn (l ++ .did n (.setStatus r st) u :: m1) r = st := by
      have := winv hrun'; rw [hw] at this; exact this.1
    obtain ⟨cur', q, ks', hw2, ht2⟩ := tells_rest hrun' (fun n ks a h => hu n ks a (by simp [h]))
    have hrun2 : Run (((l ++ .did n (.setStatus r st) u :: m1) ++ .did k (.lockObs r) os :: m2) ++ .did n' (.unlockObs r ks) v :: z) := by simpa using hrun
    obtain ⟨c, s, ho⟩ := work_ok hrun2 (q := .unlockObs r ks) (fun h => h)
    rw [hw2] at ho
    simp only [Fw.telling.injEq] at ho
    obtain ⟨-, -, -, rfl, -⟩ := ho
    refine ⟨m1, k, m2, by rw [← hos], ?_⟩
    rw [← hos]
    have : tellsIn r (m1 ++ .did k (.lockObs r) os :: m2) = tellsIn r m1 ++ tellsIn r m2 := by simp [tellsIn]
    rw [this, ht, List.nil_append]
    rw [hst] at ht2
    simpa using ht2.symm
  · exfalso
    obtain ⟨⟨cur, d, hw, -⟩, -⟩ := change_locks hrun (fun k os h => hno ⟨k, os, h⟩)
    obtain ⟨c, s, ho⟩ := work_ok (l := l ++ .did n (.setStatus r st) u :: m) (by simpa using hrun) (q := .unlockObs r ks) (fun h => h)
    rw [hw] at ho; cases ho

/-- C42: when the service is lost, what depended on it is dropped before the observers are told. -/
theorem dropped_before_told {l m z : List Event} {n k : Nat} {r : Rq} {u : Unit} {os : List Obs} (hrun : Run (l ++ .did n (.setStatus r .unavailable) u :: (m ++ .did k (.lockObs r) os :: z)))
    (hno : ∀ n os, .did n (.lockObs r) os ∉ m) : ∃ k b, .did k (.drop r) b ∈ m := by
  obtain ⟨⟨cur, d, hw, hd⟩, -⟩ := change_locks hrun hno
  obtain ⟨c, s, d', ho, hd'⟩ := work_ok (l := l ++ .did n (.setStatus r .unavailable) u :: m) (by simpa using hrun) (q := .lockObs r) (fun h => h)
  rw [hw] at ho
  simp only [Fw.set.injEq] at ho
  obtain ⟨-, -, rfl, rfl⟩ := ho
  exact hd (hd' rfl)

/-- The operations call `n` has done. -/
abbrev opsOf (n : Nat) (l : List Event) : List (Op Query Ans) := allOps (S := sys) (trace (S := sys) n l)

theorem mem_opsOf {n : Nat} {l : List Event} {q : Query} {a : Ans q} : ⟨q, a⟩ ∈ opsOf n l ↔ .did n q a ∈ l := by
  constructor
  · intro h
    obtain ⟨e, he, h⟩ := List.mem_filterMap.1 h
    obtain ⟨h1, h2⟩ := List.mem_filter.1 he
    cases e with
    | did k q' a' => cases h; simp [Ev.cid] at h2; subst h2; exact h1
    | _ => cases h
  · intro h; exact List.mem_filterMap.2 ⟨.did n q a, in_trace (S := sys) h, rfl⟩

theorem ops_path {l : List Event} (h : Run l) {n : Nat} {c : Call} {x : Res} (hc : .called n c ∈ l) (hx : .returned n x ∈ l) : Path (prog c) (opsOf n l) (.ret x) := by
  obtain ⟨as, s, hr, rfl⟩ := h
  obtain ⟨ops, h1, h2⟩ := returned_ops hr hc hx
  have : opsOf n s.log = ops := by
    unfold opsOf
    rw [h1, ← List.singleton_append, allOps_append, allOps_append, allOps_evs]
    simp [allOps]
  rw [this]; exact h2

/-- C42: registering tells the observer that the service is available exactly if it is (at the moment it is registered). -/
theorem greeted_iff {l : List Event} (h : Run l) {n : Nat} {r : Rq} {o : Obs} {x : Res} (hc : .called n (.registerObserver r o) ∈ l) (hx : .returned n x ∈ l) :
    ∃ l1 a l2, l = l1 ++ .did n (.addObs r o) a :: l2 ∧ a = statusIn l1 r ∧ ((∃ e, .did n (.greet r o) e ∈ l) ↔ a = .available) ∧ ∀ r' o' e, .did n (.greet r' o') e ∈ l → r' = r ∧ o' = o := by
  have hp := ops_path h hc hx
  have key : ∃ a, ⟨.addObs r o, a⟩ ∈ opsOf n l ∧ (if a = .available then ∃ e, opsOf n l = [⟨.addObs r o, a⟩, ⟨.greet r o, e⟩] else opsOf n l = [⟨.addObs r o, a⟩]) := by
    simp only [prog, registerObserver, path_bind_ret, atom, ask_bind, path_ask_ret] at hp
    obtain ⟨l1, l2, u, h1, ⟨a, l3, rfl, h3⟩, h4⟩ := hp
    simp only [path_pure] at h4
    obtain ⟨rfl, -⟩ := h4
    simp only [List.append_nil] at h1
    refine ⟨a, by rw [h1]; simp, ?_⟩
    rw [h1]
    split at h3
    · next ha =>
      simp only [ask_bind, path_ask_ret, path_pure] at h3
      obtain ⟨e, l4, rfl, rfl, -⟩ := h3
      rw [if_pos ha]
      exact ⟨e, rfl⟩
    · next ha =>
      simp only [path_pure] at h3
      obtain ⟨rfl, -⟩ := h3
      rw [if_neg ha]
  obtain ⟨a, h1, h2⟩ := key
  obtain ⟨l1, l2, hl⟩ := List.append_of_mem (mem_opsOf.1 h1)
  refine ⟨l1, a, l2, hl, ?_, ?_, ?_⟩
  · rw [hl] at h; exact h.ok.1
  · constructor
    · rintro ⟨e, he⟩
      refine Classical.byContradiction fun ha => ?_
      rw [if_neg ha] at h2
      have := mem_opsOf.2 he
      rw [h2] at this
      simp at this
    · intro ha
      rw [if_pos ha] at h2
      obtain ⟨e, h2⟩ := h2
      exact ⟨e, mem_opsOf.1 (by rw [h2]; simp)⟩
  · intro r' o' e he
    have := mem_opsOf.2 he
    split at h2
    · obtain ⟨e', h2⟩ := h2
      rw [h2] at this
      simp at this
      exact this.1
    · rw [h2] at this
      simp at this

/-- Call `n` goes on `k` steps; observers return, sends succeed. -/
def go (n k : Nat) : List (Act sys) := List.replicate k (.step n .ok)

/-- There is a requester (0) for service 1, and its observer 5. -/
def oneObserver : List (Act sys) := .call (.getServiceRequester 1) :: go 0 2 ++ .call (.registerObserver 0 5) :: go 1 2

/-- The hypotheses are met: the service becomes available, again available, and is lost. The observer is told the two changes. -/
example : ∃ s, run (Calls.init sys) (oneObserver ++ .call (.incoming (.status 1 .available)) :: go 2 10 ++ .call (.incoming (.status 1 .available)) :: go 3 6 ++ .call (.monitor .available) :: go 4 4 ++
      .call (.monitor .unavailable) :: go 5 12) = some s ∧
    (∃ m, s.log = [.called 0 (.getServiceRequester 1), .did 0 (.getReq 1) (0, some .unavailable), .returned 0 (.req 0), .called 1 (.registerObserver 0 5)] ++ .did 1 (.addObs 0 5) .unavailable :: m) ∧
    toldIn 0 5 s.log = [.available, .unavailable] ∧ reqLockIn s.log = none ∧ .returned 5 .unit ∈ s.log := by
  refine ⟨_, rfl, ⟨_, rfl⟩, by decide, by decide, by decide⟩

/-- C42 does not hold in general: an observer that registers while a change is being worked off is told the change twice, by its registration and by the change. -/
theorem told_twice : ∃ s, run (Calls.init sys) (.call (.getServiceRequester 1) :: go 0 2 ++ .call (.incoming (.status 1 .available)) :: go 1 5 ++ .call (.registerObserver 0 5) :: go 2 3 ++ go 1 5) = some s ∧
    changesIn 0 s.log = [.available] ∧ .did 2 (.greet 0 5) .ok ∈ s.log ∧ toldIn 0 5 s.log = [.available] ∧ .returned 1 (.bool true) ∈ s.log ∧ .returned 2 .unit ∈ s.log := by
  refine ⟨_, rfl, by decide, by decide, by decide, by decide, by decide⟩

/-- The news may be stale: the observer learns that the service is lost, and then, from its registration, that it is available. -/
theorem stale_greeting : ∃ s l m, run (Calls.init sys) (.call (.getServiceRequester 1) :: go 0 2 ++ .call (.incoming (.status 1 .available)) :: go 1 9 ++ .call (.registerObserver 0 5) :: go 2 1 ++
      .call (.incoming (.status 1 .unavailable)) :: go 3 11 ++ go 2 2) = some s ∧ s.log = l ++ [.did 2 (.greet 0 5) .ok] ++ m ∧ toldIn 0 5 l = [.unavailable] ∧ toldIn 0 5 m = [] ∧ statusIn s.log 0 = .unavailable := by
  refine ⟨_, _, [.returned 2 .unit], rfl, rfl, by decide, by decide, by decide⟩

/-- While an observer is told, no call of the client that looks up a requester goes on: if the observer makes one, it waits for itself. -/
theorem lookup_blocks {as : List (Act sys)} {s : St} (hr : run (Calls.init sys) as = some s) {l : List Event} {n : Nat} {r : Rq} {o : Obs} {old new : Avail} {a : Out}
    (hl : s.log = l ++ [.did n (.tell r o old new) a]) {m : Nat} {q : Query} {k : Ans q → Prog Query Ans Res} (hm : s.pc m = .at (.ask q k))
    (hq : (∃ sid, q = .getReq sid ∨ q = .hasReq sid ∨ q = .findReq sid ∨ q = .lockReq sid) ∨ q = .lockReqs ∨ (∃ o', q = .addObs r o' ∨ q = .removeObs r o')) (e : Out) : step s (.step m e) = none := by
  have hrun : Run s.log := ⟨as, s, hr, rfl⟩
  have hw : ∃ cur q ks, work s.log = .telling r cur new q ks := by
    rw [hl] at hrun
    obtain ⟨cur, q, ks, ho⟩ := work_ok hrun (q := .tell r o old new) (fun h => h)
    refine ⟨cur, q, keepIf o ks a, ?_⟩
    rw [hl, work_one, ho]; rfl
  obtain ⟨cur, qu, ks, hw⟩ := hw
  have g := good_run hr
  have hi := winv (l := s.log) (r := []) (by simpa using hrun)
  rw [hw] at hi
  have h1 : s.sh.reqLock ≠ none := by
    rw [g.abs.reqLock]
    intro h
    rw [(work_free hrun).1 h] at hw; cases hw
  have h2 : s.sh.obsLock r ≠ none := by rw [g.abs.obsLock]; exact hi.2.2.1
  have hx : exec s.sh m q e = none := by
    rcases hq with ⟨sid, rfl | rfl | rfl | rfl⟩ | rfl | ⟨o', rfl | rfl⟩ <;> simp [exec, h1, h2]
  have hu : s.ub = false := by
    refine Classical.byContradiction fun hu => ?_
    have hu : s.ub = true := by simpa using hu
    obtain ⟨k, hk⟩ := (run_ub hr).1 hu
    -- the last event of a history that ends with something undefined is that
    have : ∀ s : St, (s.ub = true → ∃ l k, s.log = l ++ [.crashed k]) → ∀ s', Steps s s' → (s'.ub = true → ∃ l k, s'.log = l ++ [.crashed k]) := by
      intro s _ s' hs hu'
      cases hs with
      | call c hu => rw [hu] at hu'; cases hu'
      | ret n r hu h => rw [hu] at hu'; cases hu'
      | crash n hu h => exact ⟨_, _, rfl⟩
      | did n q k e a sh hu h hx => rw [hu] at hu'; cases hu'
    obtain ⟨l', k', hl'⟩ := run_induct (S := sys) (I := fun s => s.ub = true → ∃ l k, s.log = l ++ [.crashed k]) (by intro h; cases h) (fun s s' h hs => this s h s' hs) hr hu
    rw [hl] at hl'
    have := (List.append_inj' hl' rfl).2
    simp at this
  simp only [step, hu, hm]
  rw [hx]; rfl

/-- The hypotheses are met: the observer asks for a requester. -/
example : ∃ s k, run (Calls.init sys) (oneObserver ++ .call (.incoming (.status 1 .available)) :: go 2 7 ++ [.call (.getServiceRequester 2)]) = some s ∧
    s.pc 3 = .at (.ask (.getReq 2) k) ∧ (∀ e, step s (.step 3 e) = none) ∧ toldIn 0 5 s.log = [.available] := by
  refine ⟨_, _, rfl, rfl, fun e => rfl, by decide⟩

/-- An observer that throws anything but `UnavailableException` ends the program (the notification is `noexcept`). -/
theorem throwing_observer : ∃ s, run (Calls.init sys) (oneObserver ++ .call (.incoming (.status 1 .available)) :: go 2 6 ++ [.step 2 .throws, .step 2 .ok]) = some s ∧ s.ub = true := by
  refine ⟨_, rfl, rfl⟩

/-- One that throws `UnavailableException` is forgotten. -/
example : ∃ s, run (Calls.init sys) (oneObserver ++ .call (.incoming (.status 1 .available)) :: go 2 6 ++ .step 2 .gone :: go 2 3 ++ .call (.incoming (.status 1 .unavailable)) :: go 3 10) = some s ∧
    toldIn 0 5 s.log = [.available] ∧ obsIn s.log 0 = [] ∧ .returned 3 (.bool true) ∈ s.log := by
  refine ⟨_, rfl, by decide, by decide, by decide⟩

end Maf.Cli
