import Verif.Props.ProviderAbort
/-
C63: when an abort callback can be called again.
-/
namespace Maf.Prov
open Maf.Calls

/-- What the end of the provider does with the requests: they are locked while their callbacks are called, and each request is aborted once. -/
def EndOk (pre : List O) : O → Prop
  | ⟨.run (.abort _ r), _⟩ => ∀ rs, ⟨.lockReqs, rs⟩ ∈ pre → ⟨.unlockReqs, ()⟩ ∉ pre ∧ (rs.Nodup → ∀ g, ⟨.run (.abort g r), ()⟩ ∉ pre)
  | ⟨.unlockReqs, _⟩ => (∃ rs, ⟨.lockReqs, rs⟩ ∈ pre) ∧ ⟨.unlockReqs, ()⟩ ∉ pre
  | _ => True

theorem abortRequest_ops {r : Rid} {l : List O} {u : Unit} (h : Path (abortRequest r) l (.ret u)) {o : O} (ho : o ∈ l) :
    (∃ b, o = ⟨.invalidate r, b⟩) ∨ (∃ x, o = ⟨.abortFn r, x⟩) ∨ ∃ f, o = ⟨.run (.abort f r), ()⟩ := by
  obtain ⟨b, x, rfl⟩ := abortRequest_path h
  rcases List.mem_cons.1 ho with rfl | ho
  · exact .inl ⟨b, rfl⟩
  rcases List.mem_cons.1 ho with rfl | ho
  · exact .inr (.inl ⟨x, rfl⟩)
  cases x with
  | none => cases ho
  | some f => exact .inr (.inr ⟨f, by simpa using ho⟩)

theorem abortAll_ops {rs : List Rid} {l : List O} {u : Unit} (h : Path (abortAll rs) l (.ret u)) {o : O} (ho : o ∈ l) :
    ∃ r, (∃ b, o = ⟨.invalidate r, b⟩) ∨ (∃ x, o = ⟨.abortFn r, x⟩) ∨ ∃ f, o = ⟨.run (.abort f r), ()⟩ := by
  induction rs generalizing l with
  | nil => simp [abortAll] at h; simp [h] at ho
  | cons r rs ih =>
    simp only [abortAll, path_bind_ret] at h
    obtain ⟨u, l1, l2, rfl, h1, h2⟩ := h
    rcases List.mem_append.1 ho with ho | ho
    · exact ⟨r, abortRequest_ops h1 ho⟩
    · exact ih h2 ho

theorem abortAll_end {rs rs' : List Rid} {pre : List O} (hl : ∀ x, ⟨.lockReqs, x⟩ ∈ pre → x = rs') (hu : ⟨.unlockReqs, ()⟩ ∉ pre) (hn : rs'.Nodup → rs.Nodup)
    (hg : rs'.Nodup → ∀ r ∈ rs, ∀ g, ⟨.run (.abort g r), ()⟩ ∉ pre) : Along EndOk pre (abortAll rs) := by
  induction rs generalizing pre with
  | nil => trivial
  | cons r rs ih =>
    have one : Along EndOk pre (abortRequest r) := by
      simp only [abortRequest, ask_bind, along_ask]
      refine fun b => ⟨trivial, fun o => ⟨trivial, ?_⟩⟩
      split
      · refine fun u => ⟨fun x hx => ⟨by simpa using hu, fun h g => ?_⟩, trivial⟩
        obtain rfl := hl x (by simpa using hx)
        simpa using hg h r (by simp) g
      · trivial
    refine one.bind fun l _ hp => ih ?_ ?_ (fun h => (List.nodup_cons.1 (hn h)).2) ?_
    · intro x hx
      rcases List.mem_append.1 hx with h | h
      · exact hl x h
      · have := abortRequest_ops hp h; simp at this
    · intro h
      rcases List.mem_append.1 h with h | h
      · exact hu h
      · have := abortRequest_ops hp h; simp at this
    · intro hd r' hr' g h
      rcases List.mem_append.1 h with h | h
      · exact hg hd r' (by simp [hr']) g h
      · have := abortRequest_ops hp h
        simp at this
        exact (List.nodup_cons.1 (hn hd)).1 (this ▸ hr')

theorem deinit_end {pre : List O} (hl : ∀ x, ⟨.lockReqs, x⟩ ∉ pre) (hu : ⟨.unlockReqs, ()⟩ ∉ pre) (hg : ∀ r g, ⟨.run (.abort g r), ()⟩ ∉ pre) : Along EndOk pre deinit := by
  simp only [deinit, ask_bind, along_ask]
  refine fun _ => ⟨trivial, fun rs => ⟨trivial, ?_⟩⟩
  refine (abortAll_end (rs' := rs) ?_ (by simpa using hu) id ?_).bind fun l _ hp => fun _ => ⟨trivial, fun _ => ⟨⟨⟨rs, by simp⟩, ?_⟩, fun _ => ⟨trivial, trivial⟩⟩⟩
  · intro x hx
    simp [hl] at hx
    exact hx
  · intro _ r _ g
    simpa using hg r g
  · intro h
    simp [hu] at h
    have := abortAll_ops hp h
    simp at this

theorem prog_end (c : Call) : Along EndOk [] (prog c) := by
  by_cases hc : c = .deinit ∨ c = .destroy
  · rcases hc with rfl | rfl
    · exact (deinit_end (by simp) (by simp) (by simp)).bind fun _ _ _ => trivial
    · exact fun _ => ⟨trivial, (deinit_end (by simp) (by simp) (by simp)).bind fun _ _ _ => trivial⟩
  · refine (prog_local c).mono fun l o h => ?_
    obtain ⟨q, a⟩ := o
    cases q with
    | unlockReqs => exact absurd h.1 hc
    | run cb =>
      cases cb with
      | abort f r =>
        rcases h with ⟨-, rfl⟩ | ⟨m, b, -, -, rfl⟩ | ⟨h, -⟩
        · simp [EndOk]
        · simp [EndOk]
        · exact absurd h hc
      | _ => trivial
    | _ => trivial

theorem Run.end {l r : List Event} {n : Nat} {q : Query} {a : Ans q} (h : Run (l ++ .did n q a :: r)) :
    ∃ c pre, Ev.called n c ∈ l ∧ trace (S := sys) n l = .called n c :: evs (S := sys) n pre ∧ EndOk pre ⟨q, a⟩ := by
  obtain ⟨as, s, hr, hl⟩ := h
  obtain ⟨c, pre, k, h1, h2, h3⟩ := did_path hr hl
  exact ⟨c, pre, h1, h2, (prog_end c).at h3 a⟩

/-- What is in the history was done by the call. -/
theorem mem_pre {n : Nat} {c : Call} {l : List Event} {pre : List O} (ht : trace (S := sys) n l = .called n c :: evs (S := sys) n pre) {q : Query} {a : Ans q} (h : Ev.did n q a ∈ l) : ⟨q, a⟩ ∈ pre := by
  have h8 := in_trace (S := sys) h
  simp only [Ev.cid] at h8
  rw [ht] at h8
  simp only [List.mem_cons, reduceCtorEq, false_or] at h8
  exact mem_evs.1 h8

/-- Who has locked the requests and not unlocked them has the lock. -/
theorem req_lock {l : List Event} (h : Run l) : ∀ k, (∃ rs, .did k .lockReqs rs ∈ l) → .did k .unlockReqs () ∉ l → reqLockIn l = some k := by
  revert h
  refine snoc_induct (motive := fun l => Run l → ∀ k, (∃ rs, .did k .lockReqs rs ∈ l) → .did k .unlockReqs () ∉ l → reqLockIn l = some k) (by simp) ?_ l
  intro l e ih h k h1 h2
  have ih := ih h.left
  have old : (∀ rs, Ev.did k .lockReqs rs ≠ e) → reqLockIn l = some k := by
    intro h3
    refine ih k ?_ (fun h => h2 (by simp [h]))
    obtain ⟨rs, h4⟩ := h1
    exact ⟨rs, by simpa [h3] using h4⟩
  rw [reqLockIn_one]
  cases e with
  | did n q a =>
    cases q with
    | lockReqs =>
      have h3 : reqLockIn l = none := (Run.ok (r := []) h).2
      by_cases hk : k = n
      · subst hk; rfl
      · have := old (fun rs h => by cases h; exact hk rfl)
        rw [h3] at this; cases this
    | unlockReqs =>
      have h4 := old (by simp)
      obtain ⟨c, pre, hc, ht, ⟨rs, h5⟩, h6⟩ := Run.end (r := []) h
      have h7 : reqLockIn l = some n := ih n ⟨rs, pre_mem ht h5⟩ fun h => h6 (mem_pre ht h)
      rw [h4] at h7
      cases h7
      exact absurd (by simp) h2
    | _ => exact old (by simp)
  | _ => exact old (by simp)

/-- Call `j` ends the provider. -/
def Ends (l : List Event) (j : Nat) : Prop := .called j .deinit ∈ l ∨ .called j .destroy ∈ l

/-- Partial: if a callback is given once for a request (by call `n` of `onAborted`), every call of the provider calls it at most once, and it is called again only after the end of the provider
has called it: after the abort by the client, or after `onAborted` has called it itself, it is not called again. -/
theorem aborted_again_partial {as : List (Act sys)} {s : St} (hr : run (Calls.init sys) as = some s) {n j j' : Nat} {r : Rid} {f f' : Fn} {l rest : List Event}
    (ho : ∀ n' g, .called n' (.onAborted r g) ∈ s.log → n' = n) (h : s.log = l ++ .did j (.run (.abort f r)) () :: rest) (hm : .did j' (.run (.abort f' r)) () ∈ rest) :
    j ≠ j' ∧ Ends s.log j ∧ f' = f := by
  obtain ⟨u, v, rfl⟩ := List.append_of_mem hm
  have h' : s.log = (l ++ .did j (.run (.abort f r)) () :: u) ++ .did j' (.run (.abort f' r)) () :: v := by rw [h]; simp
  have hrun := run_of hr
  -- a callback that is found was given by `n`
  have given : ∀ {l rest : List Event} {j : Nat} {f : Fn}, s.log = l ++ rest → .did j (.abortFn r) (some f) ∈ l → .did n (.setAbort r f) true ∈ s.log := by
    intro l rest j f h ha
    have hr1 := hrun
    rw [h] at hr1
    obtain ⟨a, b, rfl⟩ := List.append_of_mem ha
    obtain ⟨n', hn'⟩ := abort_event (show abortIn a r = some f from hr1.left.ok.1.symm)
    obtain ⟨a1, a2, rfl⟩ := List.append_of_mem hn'
    obtain ⟨c', pre', hc1, -, rfl, -⟩ := hr1.left.left.did
    have e : n' = n := ho n' f (by rw [h]; simp [hc1])
    subst e
    rw [h]; simp
  -- a callback is called by `onAborted`, or by a call that has taken the request, or by the end of the provider
  have key : ∀ {l rest : List Event} {j : Nat} {f : Fn}, s.log = l ++ .did j (.run (.abort f r)) () :: rest → (∀ g, .did j (.run (.abort g r)) () ∉ l) ∧
      ((j = n ∧ .did n (.setAbort r f) false ∈ l ∧ .called n (.onAborted r f) ∈ s.log) ∨
       (.did n (.setAbort r f) true ∈ s.log ∧ ((∃ op id, .did j (.find op id true) (some r) ∈ l) ∨ Ends s.log j ∧ .did j .unlockReqs () ∉ l ∧ ∃ rs, .did j .lockReqs rs ∈ l ∧ r ∈ rs))) := by
    intro l rest j f h
    have hr1 := hrun
    rw [h] at hr1
    obtain ⟨c, pre, hc, ht, hl⟩ := hr1.did
    have hc' : .called j c ∈ s.log := by rw [h]; exact List.mem_append_left _ hc
    have hno : ∀ g, ⟨.run (.abort g r), ()⟩ ∉ pre → .did j (.run (.abort g r)) () ∉ l := fun g hg hm => hg (mem_pre ht hm)
    rcases hl with ⟨rfl, rfl⟩ | ⟨m, b, rfl, -, rfl⟩ | ⟨hcc, rs, h1, h2, h3⟩
    · obtain rfl := ho j f hc'
      exact ⟨fun g => hno g (by simp), .inl ⟨rfl, pre_mem ht (by simp), hc'⟩⟩
    · exact ⟨fun g => hno g (by simp), .inr ⟨given h (pre_mem ht (by simp)), .inl ⟨m.op, m.id, pre_mem ht (by simp)⟩⟩⟩
    · obtain ⟨c2, pre2, hc2, ht2, he⟩ := hr1.end
      have hlock : .did j .lockReqs rs ∈ l := pre_mem ht h1
      obtain ⟨e1, e2⟩ := he rs (mem_pre ht2 hlock)
      have hnd : rs.Nodup := by
        obtain ⟨a, b, rfl⟩ := List.append_of_mem hlock
        have : rs = pendIn a := hr1.left.ok.1
        rw [this]
        exact hr1.left.left.pendNodup
      refine ⟨fun g hm => e2 hnd g (mem_pre ht2 hm), .inr ⟨given h (pre_mem ht h3), .inr ⟨?_, fun hm => e1 (mem_pre ht2 hm), rs, hlock, h2⟩⟩⟩
      rcases hcc with rfl | rfl
      · exact .inl hc'
      · exact .inr hc'
  -- one call of `onAborted` either stores or calls
  have same : ∀ f g x y, .did n (.setAbort r f) x ∈ s.log → .did n (.setAbort r g) y ∈ s.log → f = g ∧ x = y := by
    intro f g x y h1 h2
    obtain ⟨a, b, e⟩ := List.append_of_mem h1
    rw [e] at h2
    have first : ∀ {a b : List Event} {f : Fn} {x : Bool}, s.log = a ++ .did n (.setAbort r f) x :: b → ∀ g y, .did n (.setAbort r g) y ∉ a := by
      intro a b f x e g y hm
      have hr1 := hrun
      rw [e] at hr1
      obtain ⟨c, pre, hc, ht, rfl, rfl⟩ := hr1.did
      have := mem_pre ht hm
      cases this
    rcases List.mem_append.1 h2 with k | k
    · exact absurd k (first e g y)
    · rcases List.mem_cons.1 k with k | k
      · cases k; exact ⟨rfl, rfl⟩
      · obtain ⟨c, d, rfl⟩ := List.append_of_mem k
        exact absurd (by simp) (first (f := g) (x := y) (a := a ++ .did n (.setAbort r f) x :: c) (b := d) (by rw [e]; simp) f x)
  obtain ⟨-, k1⟩ := key h
  obtain ⟨k2, k3⟩ := key h'
  have hne : j ≠ j' := fun e => k2 f (by simp [e])
  have mem1 : ∀ {e : Event}, e ∈ l → e ∈ s.log := fun hm => by rw [h]; exact List.mem_append_left _ hm
  have mem2 : ∀ {e : Event}, e ∈ l ++ .did j (.run (.abort f r)) () :: u → e ∈ s.log := fun hm => by rw [h']; exact List.mem_append_left _ hm
  rcases k1 with ⟨rfl, h1, -⟩ | ⟨hg, hfind | ⟨hend, -⟩⟩
  · rcases k3 with ⟨e, -⟩ | ⟨hg', -⟩
    · exact absurd e.symm hne
    · exact absurd (same _ _ _ _ (mem1 h1) hg').2 (by simp)
  · exfalso
    obtain ⟨op, id, h1⟩ := hfind
    obtain ⟨a, b, rfl⟩ := List.append_of_mem h1
    have hr1 := hrun
    rw [h'] at hr1
    have hr2 : Run (a ++ .did j (.find op id true) (some r) :: (b ++ .did j (.run (.abort f r)) () :: u ++ .did j' (.run (.abort f' r)) () :: v)) := by simpa using hr1
    -- an event of call `j'` before its callback comes before or after the request is taken
    have place : ∀ {q : Query} {x : Ans q}, .did j' q x ∈ (a ++ .did j (.find op id true) (some r) :: b) ++ .did j (.run (.abort f r)) () :: u →
        .did j' q x ∈ a ∨ .did j' q x ∈ b ∨ .did j' q x ∈ u := by
      intro q x hm
      simp only [List.mem_append, List.mem_cons] at hm
      rcases hm with (k | k | k) | k | k
      · exact .inl k
      · cases k; exact absurd rfl hne
      · exact .inr (.inl k)
      · cases k; exact absurd rfl hne
      · exact .inr (.inr k)
    rcases k3 with ⟨rfl, h3, -⟩ | ⟨hg', ⟨op', id', h3⟩ | ⟨-, hu, rs, hlock, hmem⟩⟩
    · exact absurd (same _ _ _ _ (mem2 h3) hg).2 (by simp)
    · rcases place h3 with k | k | k
      · obtain ⟨a1, a2, rfl⟩ := List.append_of_mem k
        rw [List.append_assoc, List.cons_append] at hr2
        exact hr2.takenOnce j op id true (by simp)
      · exact hr2.takenOnce j' op' id' true (by simp [k])
      · exact hr2.takenOnce j' op' id' true (by simp [k])
    · have hfree : reqLockIn a = none := hr2.ok.2
      obtain ⟨-, m, hm, -⟩ := Run.found hr2
      have later : ∀ {p p' : List Event}, .did j' .lockReqs rs ∈ p → Run (a ++ .did j (.find op id true) (some r) :: (p ++ p')) → False := by
        intro p p' hp hrp
        obtain ⟨p1, p2, rfl⟩ := List.append_of_mem hp
        have hrp' : Run ((a ++ [.did j (.find op id true) (some r)]) ++ p1 ++ .did j' .lockReqs rs :: (p2 ++ p')) := by simpa using hrp
        have hpend : rs = pendIn ((a ++ [.did j (.find op id true) (some r)]) ++ p1) := hrp'.ok.1
        have h1 : r ∉ pendIn (a ++ [.did j (.find op id true) (some r)]) := by rw [pendIn_one]; simp [pendStep]
        have h2 : msgIn (a ++ [.did j (.find op id true) (some r)]) r ≠ none := by
          rw [msgIn_one]; simp [msgStep, hm]
        exact hrp'.left.goneLater h2 h1 (hpend ▸ hmem)
      rcases place hlock with k | k | k
      · have := req_lock hr2.left j' ⟨rs, k⟩ (fun hm => hu (by simp [hm]))
        rw [hfree] at this
        cases this
      · refine later (p := b) k (p' := .did j (.run (.abort f r)) () :: u ++ .did j' (.run (.abort f' r)) () :: v) ?_
        simpa using hr2
      · refine later (p := b ++ .did j (.run (.abort f r)) () :: u) (by simp [k]) (p' := .did j' (.run (.abort f' r)) () :: v) ?_
        simpa using hr2
  · refine ⟨hne, hend, ?_⟩
    rcases k3 with ⟨rfl, h3, -⟩ | ⟨hg', -⟩
    · exact absurd (same _ _ _ _ (mem2 h3) hg).2 (by simp)
    · exact (same _ _ _ _ hg' hg).1

/-- Partial: after a reply has taken the request (operation `find`, which is how a reply completes it), its callback is called by nobody but `onAborted` itself. -/
theorem answered_silent_partial {as : List (Act sys)} {s : St} (hr : run (Calls.init sys) as = some s) {k j : Nat} {q : Rid} {p : Payload} {op : OpId} {id : Option Nat} {r : Rid} {f : Fn} {l rest : List Event}
    (hk : .called k (.respond q p) ∈ s.log) (h : s.log = l ++ .did k (.find op id true) (some r) :: rest) (hm : .did j (.run (.abort f r)) () ∈ rest) : .called j (.onAborted r f) ∈ s.log := by
  obtain ⟨u, v, rfl⟩ := List.append_of_mem hm
  have hr1 := run_of hr
  rw [h] at hr1
  have hr2 : Run ((l ++ .did k (.find op id true) (some r) :: u) ++ .did j (.run (.abort f r)) () :: v) := by simpa using hr1
  obtain ⟨c, pre, hc, ht, hl⟩ := hr2.did
  have hc' : .called j c ∈ s.log := by rw [h]; simp at hc ⊢; rcases hc with hc | hc <;> simp [hc]
  have hne : (∃ m, c = .incoming m) ∨ c = .deinit ∨ c = .destroy → j ≠ k := by
    rintro hcc rfl
    have := (run_of hr).one hc' hk
    subst this
    simp at hcc
  have place : ∀ {q : Query} {x : Ans q}, j ≠ k → .did j q x ∈ l ++ .did k (.find op id true) (some r) :: u → .did j q x ∈ l ∨ .did j q x ∈ u := by
    intro q x hne hm
    simp only [List.mem_append, List.mem_cons] at hm
    rcases hm with k | k | k
    · exact .inl k
    · cases k; exact absurd rfl hne
    · exact .inr k
  rcases hl with ⟨rfl, -⟩ | ⟨m, b, rfl, -, rfl⟩ | ⟨hcc, rs, h1, h2, h3⟩
  · exact hc'
  · exfalso
    have hne := hne (.inl ⟨m, rfl⟩)
    rcases place hne (pre_mem ht (q := .find m.op m.id true) (a := some r) (by simp)) with hp | hp
    · obtain ⟨a1, a2, rfl⟩ := List.append_of_mem hp
      rw [List.append_assoc, List.cons_append] at hr1
      exact hr1.takenOnce k op id true (by simp)
    · exact hr1.takenOnce j m.op m.id true (by simp [hp])
  · exfalso
    have hne := hne (.inr hcc)
    obtain ⟨c2, pre2, -, ht2, he⟩ := hr2.end
    have hu := (he rs (mem_pre ht2 (pre_mem ht h1))).1
    have hfree : reqLockIn l = none := hr1.ok.2
    obtain ⟨-, m, hmsg, -⟩ := Run.found hr1
    rcases place hne (pre_mem ht h1) with hp | hp
    · have := req_lock hr1.left j ⟨rs, hp⟩ (fun hm => hu (mem_pre ht2 (by simp [hm])))
      rw [hfree] at this
      cases this
    · obtain ⟨p1, p2, rfl⟩ := List.append_of_mem hp
      have hrp : Run ((l ++ [.did k (.find op id true) (some r)]) ++ p1 ++ .did j .lockReqs rs :: (p2 ++ .did j (.run (.abort f r)) () :: v)) := by simpa using hr1
      have hpend : rs = pendIn ((l ++ [.did k (.find op id true) (some r)]) ++ p1) := hrp.ok.1
      have h1 : r ∉ pendIn (l ++ [.did k (.find op id true) (some r)]) := by rw [pendIn_one]; simp [pendStep]
      have h3 : msgIn (l ++ [.did k (.find op id true) (some r)]) r ≠ none := by
        rw [msgIn_one]; simp [msgStep, hmsg]
      exact hrp.left.goneLater h3 h1 (hpend ▸ h2)

/-- Case: the callback is given, the request answered, the client aborts and the provider is ended: the callback is not called. -/
example : ∃ s, run (Calls.init sys) (oneRequest ++ .call (.onAborted 0 3) :: go 2 2 ++ .call (.respond 0 (val 10)) :: go 3 5 ++ .call (.incoming ⟨.abort, 5, 1, some 7, .null⟩) :: go 4 2 ++ .call .deinit :: go 5 6) = some s ∧
    cbsIn s.log = [(1, .handler 9 0)] ∧ .did 3 (.find 1 (some 7) true) (some 0) ∈ s.log ∧ .called 3 (.respond 0 (val 10)) ∈ s.log ∧ .returned 5 .unit ∈ s.log := by
  refine ⟨_, rfl, rfl, by decide, by decide, by decide⟩

/-- Case: the client's abort after the end of the provider calls the callback again. -/
example : ∃ s, run (Calls.init sys) (oneRequest ++ .call (.onAborted 0 3) :: go 2 2 ++ .call .deinit :: go 3 9 ++ .call (.incoming ⟨.abort, 5, 1, some 7, .null⟩) :: go 4 5) = some s ∧
    cbsIn s.log = [(1, .handler 9 0), (3, .abort 3 0), (4, .abort 3 0)] ∧ .called 3 .deinit ∈ s.log ∧ .returned 4 (.bool true) ∈ s.log ∧ ∀ n g, .called n (.onAborted 0 g) ∈ s.log → n = 2 := by
  refine ⟨_, rfl, rfl, by decide, by decide, ?_⟩
  simp [Calls.init, ask1]

end Maf.Prov
