import Verif.Props.Provider
/-
C63, C64: how requests are handled and aborted.
-/
namespace Maf.Prov
open Maf.Calls

/-! ### C63: abort callbacks -/

/-- The abort message of a client: the first pending request with its operation and its id is invalidated, and the abort callback it has then is called; nothing else happens. If there is no such request, nothing happens. -/
theorem abort_calls {as : List (Act sys)} {s : St} (hr : run (Calls.init sys) as = some s) {n : Nat} {m : Msg} {x : Res} (hm : m.code = .abort) (hc : .called n (.incoming m) ∈ s.log) (hx : .returned n x ∈ s.log) :
    ∃ l rest o, s.log = l ++ .did n (.find m.op m.id true) o :: rest ∧ o = (pendIn l).find? (hasId l m.op m.id) ∧
      match o with
      | none => trace (S := sys) n s.log = [.called n (.incoming m), .did n (.find m.op m.id true) none, .returned n x]
      | some r => ∃ b f, trace (S := sys) n s.log = [.called n (.incoming m), .did n (.find m.op m.id true) (some r), .did n (.invalidate r) b, .did n (.abortFn r) f] ++
          (match f with | some f => [.did n (.run (.abort f r)) ()] | none => []) ++ [.returned n x] := by
  obtain ⟨ops, ht, hp⟩ := returned_ops hr hc hx
  simp only [prog, onIncomingMessage, hm, onRequestAborted, ask_bind, bind_ask, path_ask_ret] at hp
  obtain ⟨o, l', rfl, hp⟩ := hp
  have hin : .did n (.find m.op m.id true) o ∈ s.log := mem_trace (S := sys) (n := n) (by rw [ht]; simp [evs])
  obtain ⟨l, rest, e⟩ := List.append_of_mem hin
  have hrun := run_of hr
  rw [e] at hrun
  refine ⟨l, rest, o, e, hrun.ok.1, ?_⟩
  cases o with
  | none =>
    simp at hp
    rw [ht, hp.1]; rfl
  | some r =>
    simp only [abortRequest, ask_bind, bind_ask, path_ask_ret] at hp
    obtain ⟨b, l', rfl, o, l', rfl, hp⟩ := hp
    refine ⟨b, o, ?_⟩
    cases o with
    | none =>
      simp at hp
      rw [ht, hp.1]; rfl
    | some f =>
      simp only [ask_bind, bind_ask, path_ask_ret] at hp
      obtain ⟨u, l', rfl, hp⟩ := hp
      simp at hp
      rw [ht, hp.1]; rfl

/-- `onAborted` stores the callback if the request is valid, and calls it at once otherwise. -/
theorem on_aborted {as : List (Act sys)} {s : St} (hr : run (Calls.init sys) as = some s) {n : Nat} {r : Rid} {f : Fn} {x : Res} (hc : .called n (.onAborted r f) ∈ s.log) (hx : .returned n x ∈ s.log) :
    ∃ l rest b, s.log = l ++ .did n (.setAbort r f) b :: rest ∧ b = validIn l r ∧
      trace (S := sys) n s.log = [.called n (.onAborted r f), .did n (.setAbort r f) b] ++ (if b then [] else [.did n (.run (.abort f r)) (), .did n (.freeReq r) ()]) ++ [.returned n x] := by
  obtain ⟨ops, ht, hp⟩ := returned_ops hr hc hx
  simp only [prog, onAborted, ask_bind, bind_ask, path_ask_ret] at hp
  obtain ⟨b, l', rfl, hp⟩ := hp
  have hin : .did n (.setAbort r f) b ∈ s.log := mem_trace (S := sys) (n := n) (by rw [ht]; simp [evs])
  obtain ⟨l, rest, e⟩ := List.append_of_mem hin
  have hrun := run_of hr
  rw [e] at hrun
  refine ⟨l, rest, b, e, hrun.ok.1, ?_⟩
  cases b with
  | true =>
    simp at hp
    rw [ht, hp.1]; rfl
  | false =>
    simp only [Bool.false_eq_true, if_false, ask_bind, bind_ask, path_ask_ret] at hp
    obtain ⟨u, l', rfl, v, l', rfl, hp⟩ := hp
    simp at hp
    rw [ht, hp.1]; rfl

/-- The abort callback of a request is the one stored last. -/
theorem abort_event {l : List Event} {r : Rid} {f : Fn} (h : abortIn l r = some f) : ∃ n, .did n (.setAbort r f) true ∈ l := by
  revert h
  refine snoc_induct (motive := fun l => abortIn l r = some f → ∃ n, .did n (.setAbort r f) true ∈ l) (by simp [abortIn]) ?_ l
  intro l e ih h
  rw [abortIn_one] at h
  have old : abortIn l r = some f → ∃ n, .did n (.setAbort r f) true ∈ l ++ [e] := fun h => (ih h).elim fun n hn => ⟨n, List.mem_append_left _ hn⟩
  cases e with
  | did n q a =>
    cases q with
    | newReq m' =>
      simp only [abortStep] at h
      split at h
      · cases h
      · exact old h
    | setAbort r' f' =>
      cases a with
      | false => exact old h
      | true =>
        simp only [abortStep] at h
        split at h
        · next e => cases h; subst e; exact ⟨n, by simp⟩
        · exact old h
    | _ => exact old h
  | _ => exact old h

/-- The only callback stays. -/
theorem Run.abortLater {l l' : List Event} (h : Run (l ++ l')) {r : Rid} {f : Fn} (hm : msgIn l r ≠ none) (ha : abortIn l r = some f) (ho : ∀ n g b, .did n (.setAbort r g) b ∈ l' → g = f) : abortIn (l ++ l') r = some f := by
  have : ∀ l'', (∃ z, l' = l'' ++ z) → Hist EvOk (l ++ l'') → msgIn (l ++ l'') r ≠ none ∧ abortIn (l ++ l'') r = some f := by
    refine snoc_induct (fun _ _ => by simpa using ⟨hm, ha⟩) ?_
    intro l'' e ih ⟨z, hz⟩ hh
    rw [← List.append_assoc] at hh
    obtain ⟨h0, h1⟩ := ih ⟨e :: z, by simpa using hz⟩ hh.left
    have h2 := hh.all (l ++ l'') e [] rfl
    rw [← List.append_assoc, msgIn_one, abortIn_one, h1]
    cases e with
    | did n q a =>
      cases q with
      | newReq m' =>
        simp only [msgStep, abortStep]
        split
        · next e => subst e; exact absurd h2.1 h0
        · exact ⟨h0, rfl⟩
      | setAbort r' g =>
        refine ⟨h0, ?_⟩
        cases a with
        | false => rfl
        | true =>
          simp only [abortStep]
          split
          · next e => subst e; rw [ho n g true (by rw [hz]; simp)]
          · rfl
      | _ => exact ⟨h0, rfl⟩
    | _ => exact ⟨h0, rfl⟩
  exact (this l' ⟨[], by simp⟩ h.hist).2

/-- Call `k` aborts request `r`: it delivers the client's abort message or ends the provider. -/
def Aborts (log : List Event) (k : Nat) (r : Rid) : Prop := (∃ b, .did k (.invalidate r) b ∈ log) ∧ ((∃ m, .called k (.incoming m) ∈ log) ∨ .called k .deinit ∈ log ∨ .called k .destroy ∈ log)

theorem abortRequest_path {r : Rid} {l : List O} {u : Unit} (h : Path (abortRequest r) l (.ret u)) :
    ∃ b o, l = ⟨.invalidate r, b⟩ :: ⟨.abortFn r, o⟩ :: (match o with | some f => [⟨.run (.abort f r), ()⟩] | none => []) := by
  simp only [abortRequest, ask_bind, path_ask_ret] at h
  obtain ⟨b, l', rfl, o, l', rfl, h⟩ := h
  refine ⟨b, o, ?_⟩
  cases o with
  | none => simp at h; rw [h]
  | some f =>
    simp only [atom, ask, path_ask_ret] at h
    obtain ⟨u, l', rfl, h⟩ := h
    simp at h; rw [h]

/-- Whoever invalidates a request to abort it then calls its callback. -/
def CallsBack (l : List O) (r : Rid) (b : Bool) : Prop := ∃ A o B, l = A ++ ⟨.invalidate r, b⟩ :: ⟨.abortFn r, o⟩ :: B ∧ ∀ f, o = some f → ⟨.run (.abort f r), ()⟩ ∈ B

theorem CallsBack.left {l l' : List O} {r : Rid} {b : Bool} (h : CallsBack l r b) : CallsBack (l' ++ l) r b := by
  obtain ⟨A, o, B, rfl, h⟩ := h; exact ⟨l' ++ A, o, B, by simp, h⟩

theorem CallsBack.right {l l' : List O} {r : Rid} {b : Bool} (h : CallsBack l r b) : CallsBack (l ++ l') r b := by
  obtain ⟨A, o, B, rfl, h⟩ := h; exact ⟨A, o, B ++ l', by simp, fun f hf => List.mem_append_left _ (h f hf)⟩

theorem abortRequest_back {r r' : Rid} {l : List O} {u : Unit} {b : Bool} (h : Path (abortRequest r') l (.ret u)) (hm : ⟨.invalidate r, b⟩ ∈ l) : CallsBack l r b := by
  obtain ⟨b', o, rfl⟩ := abortRequest_path h
  cases o with
  | none =>
    simp at hm; obtain ⟨rfl, hm⟩ := hm
    exact ⟨[], none, [], by simp_all, by simp⟩
  | some f =>
    simp at hm; obtain ⟨rfl, hm⟩ := hm
    exact ⟨[], some f, [⟨.run (.abort f r), ()⟩], by simp_all, by simp⟩

theorem abortAll_back {rs : List Rid} {r : Rid} {l : List O} {u : Unit} {b : Bool} (h : Path (abortAll rs) l (.ret u)) (hm : ⟨.invalidate r, b⟩ ∈ l) : CallsBack l r b := by
  induction rs generalizing l with
  | nil => simp only [abortAll, path_pure] at h; rw [h.1] at hm; cases hm
  | cons r' rs ih =>
    simp only [abortAll, path_bind_ret] at h
    obtain ⟨l1, l2, x, rfl, h1, h2⟩ := h
    rcases List.mem_append.1 hm with k | k
    · exact (abortRequest_back h1 k).right
    · exact (ih h2 k).left

theorem deinit_back {r : Rid} {l : List O} {u : Unit} {b : Bool} (h : Path deinit l (.ret u)) (hm : ⟨.invalidate r, b⟩ ∈ l) : CallsBack l r b := by
  simp only [deinit, ask_bind, path_ask_ret, path_bind_ret] at h
  obtain ⟨u1, l', rfl, rs, l', rfl, l1, l2, x, rfl, h1, u2, l', rfl, u3, l', rfl, h⟩ := h
  simp only [atom, ask, path_ask_ret] at h
  obtain ⟨u4, l', rfl, h⟩ := h
  simp at h
  obtain rfl := h
  simp at hm
  have := (abortAll_back h1 hm).left (l' := [⟨.clearRegs, u1⟩, ⟨.lockReqs, rs⟩])
  simpa using this.right

theorem aborts_back {c : Call} {r : Rid} {l : List O} {x : Res} {b : Bool} (hc : (∃ m, c = .incoming m) ∨ c = .deinit ∨ c = .destroy) (h : Path (prog c) l (.ret x)) (hm : ⟨.invalidate r, b⟩ ∈ l) : CallsBack l r b := by
  rcases hc with ⟨m, rfl⟩ | rfl | rfl
  · have hl : m.code = .abort := by
      obtain ⟨A, B, rfl⟩ := List.append_of_mem hm
      obtain ⟨k, hk⟩ := path_prefix h
      have := (incoming_local m).at hk b
      rcases this with ⟨_, _, _, e, -⟩ | ⟨m', e, h', -⟩ | ⟨e | e, -⟩
      · cases e
      · cases e; exact h'
      · cases e
      · cases e
    simp only [prog, onIncomingMessage, hl, path_bind_ret] at h
    obtain ⟨l1, l2, u, rfl, h1, h2⟩ := h
    simp at h2
    rw [h2.1, List.append_nil] at hm
    simp only [onRequestAborted, ask_bind, path_ask_ret] at h1
    obtain ⟨o, l', rfl, h1⟩ := h1
    cases o with
    | none => simp at h1; simp [h1] at hm
    | some r' =>
      simp at hm
      exact ((abortRequest_back h1 hm).left (l' := [_])).right
  · simp only [prog, path_bind_ret] at h
    obtain ⟨l1, l2, u, rfl, h1, h2⟩ := h
    simp at h2
    rw [h2.1, List.append_nil] at hm
    exact (deinit_back h1 hm).right
  · simp only [prog, ask_bind, path_ask_ret, path_bind_ret] at h
    obtain ⟨u, l', rfl, l1, l2, u, rfl, h1, h2⟩ := h
    simp at h2
    simp [h2.1] at hm
    exact ((deinit_back h1 hm).right).left (l' := [_])

/-- An abort is not missed, however it races with `onAborted`: if the client's abort message is delivered or the provider is ended, so that the request is aborted, and a callback is given to `onAborted`, then
when both calls have returned the callback was called. (No other callback is given for this request.) -/
theorem abort_not_missed {as : List (Act sys)} {s : St} (hr : run (Calls.init sys) as = some s) {n k : Nat} {r : Rid} {f : Fn} {x y : Res} (ho : ∀ n' g, .called n' (.onAborted r g) ∈ s.log → g = f)
    (hc : .called n (.onAborted r f) ∈ s.log) (hx : .returned n x ∈ s.log) (hk : Aborts s.log k r) (hy : .returned k y ∈ s.log) : ∃ j, .did j (.run (.abort f r)) () ∈ s.log := by
  obtain ⟨l, rest, b, e, hb, ht⟩ := on_aborted hr hc hx
  cases hbb : b with
  | false =>
    subst hbb
    exact ⟨n, mem_trace (S := sys) (n := n) (by rw [ht]; simp)⟩
  | true =>
    subst hbb
    obtain ⟨⟨b', hi⟩, hk⟩ := hk
    obtain ⟨c, ops, hck, htk, hp⟩ := returned_path hr hy
    have hck' : (∃ m, c = .incoming m) ∨ c = .deinit ∨ c = .destroy := by
      rcases hk with ⟨m, hm⟩ | hm | hm
      · exact .inl ⟨m, called_one hr hck hm⟩
      · exact .inr (.inl (called_one hr hck hm))
      · exact .inr (.inr (called_one hr hck hm))
    have hi' : ⟨.invalidate r, b'⟩ ∈ ops := by
      have := in_trace (S := sys) hi
      simp only [Ev.cid] at this
      rw [htk] at this
      have this : Ev.did k (.invalidate r) b' ∈ evs (S := sys) k ops := by simpa using this
      exact mem_evs.1 this
    obtain ⟨A, o, B, rfl, hB⟩ := aborts_back hck' hp hi'
    have htk' : trace (S := sys) k s.log = (.called k c :: evs (S := sys) k A) ++ .did k (.invalidate r) b' :: .did k (.abortFn r) o :: (evs (S := sys) k B ++ [.returned k y]) := by
      rw [htk, evs_append]; simp [evs]
    obtain ⟨l1, l2, e1, -, ht2⟩ := trace_split htk'
    obtain ⟨l3, l4, e2, -, ht4⟩ := trace_split (X := []) ht2
    have hrun := run_of hr
    -- the callback was stored before the invalidation
    have hlt : ∃ z, l1 = l ++ .did n (.setAbort r f) true :: z := by
      have e' := e
      rw [e1] at e'
      rcases places e' with ⟨-, h, -⟩ | ⟨z, h, -⟩ | ⟨z, h, -⟩
      · cases h
      · exfalso
        have hr2 := hrun
        rw [e, h] at hr2
        have := (invalidated hr2.left).2
        rw [h] at hb
        rw [this] at hb; cases hb
      · exact ⟨z, h⟩
    obtain ⟨z, rfl⟩ := hlt
    have h3 : s.log = (l ++ [.did n (.setAbort r f) true]) ++ (z ++ .did k (.invalidate r) b' :: l3) ++ .did k (.abortFn r) o :: l4 := by rw [e1, e2]; simp
    have hr3 := hrun
    rw [h3] at hr3
    have hm : msgIn l r ≠ none := by
      have := hrun; rw [e] at this; exact this.ok.2.2
    have hab := hr3.left.abortLater (r := r) (f := f) (by rw [msgIn_one]; exact hm) (by rw [abortIn_one]; simp [abortStep]) (by
      intro n' g b hg
      have hg' : .did n' (.setAbort r g) b ∈ s.log := by rw [h3]; exact List.mem_append_left _ (List.mem_append_right _ hg)
      obtain ⟨a1, a2, ea⟩ := List.append_of_mem hg'
      have hra := hrun
      rw [ea] at hra
      obtain ⟨c', pre, hc', -, rfl, -⟩ := hra.did
      exact ho n' g (by rw [ea]; exact List.mem_append_left _ hc'))
    have hof : o = some f := by rw [← hab]; exact hr3.ok.1
    exact ⟨k, mem_trace (S := sys) (n := k) (by rw [htk]; exact List.mem_append_left _ (List.mem_cons_of_mem _ (mem_evs.2 (by simp [hB f hof]))))⟩

/-- Partial: without the end of the provider, and with one call of `onAborted` for the request, its callback is called at most once. -/
theorem abort_once_partial {as : List (Act sys)} {s : St} (hr : run (Calls.init sys) as = some s) {n j j' : Nat} {r : Rid} {f f' : Fn} {l rest : List Event}
    (hd : ∀ k, .called k .deinit ∉ s.log ∧ .called k .destroy ∉ s.log) (ho : ∀ n' g, .called n' (.onAborted r g) ∈ s.log → n' = n) (h : s.log = l ++ .did j (.run (.abort f r)) () :: rest) :
    .did j' (.run (.abort f' r)) () ∉ rest := by
  intro hm
  obtain ⟨u, v, rfl⟩ := List.append_of_mem hm
  have h' : s.log = (l ++ .did j (.run (.abort f r)) () :: u) ++ .did j' (.run (.abort f' r)) () :: v := by rw [h]; simp
  have hrun := run_of hr
  -- a callback is called by `onAborted`, or by a call that has taken the request
  have key : ∀ {l rest : List Event} {j : Nat} {f : Fn}, s.log = l ++ .did j (.run (.abort f r)) () :: rest → (∀ g, .did j (.run (.abort g r)) () ∉ l) ∧
      ((j = n ∧ .did n (.setAbort r f) false ∈ l ∧ .called n (.onAborted r f) ∈ s.log) ∨ (∃ op id, .did j (.find op id true) (some r) ∈ l) ∧ ∃ g, .did n (.setAbort r g) true ∈ s.log) := by
    intro l rest j f h
    have hr1 := hrun
    rw [h] at hr1
    obtain ⟨c, pre, hc, ht, hl⟩ := hr1.did
    have hc' : .called j c ∈ s.log := by rw [h]; exact List.mem_append_left _ hc
    have hno : ∀ g, ⟨.run (.abort g r), ()⟩ ∉ pre → .did j (.run (.abort g r)) () ∉ l := by
      intro g hg hm
      have := in_trace (S := sys) hm
      simp only [Ev.cid] at this
      rw [ht] at this
      have this : Ev.did j (.run (.abort g r)) () ∈ evs (S := sys) j pre := by simpa using this
      exact hg (mem_evs.1 this)
    rcases hl with ⟨rfl, rfl⟩ | ⟨m, b, rfl, -, rfl⟩ | ⟨rfl | rfl, -⟩
    · obtain rfl := ho j f hc'
      exact ⟨fun g => hno g (by simp), .inl ⟨rfl, pre_mem ht (by simp), hc'⟩⟩
    · refine ⟨fun g => hno g (by simp), .inr ⟨⟨m.op, m.id, pre_mem ht (by simp)⟩, ?_⟩⟩
      have ha : .did j (.abortFn r) (some f) ∈ l := pre_mem ht (by simp)
      obtain ⟨a, b, rfl⟩ := List.append_of_mem ha
      obtain ⟨n', hn'⟩ := abort_event (show abortIn a r = some f from hr1.left.ok.1.symm)
      obtain ⟨a1, a2, rfl⟩ := List.append_of_mem hn'
      obtain ⟨c', pre', hc1, -, rfl, -⟩ := hr1.left.left.did
      have e : n' = n := ho n' f (by rw [h]; simp [hc1])
      subst e
      exact ⟨f, by rw [h]; simp⟩
    · exact absurd hc' (hd j).1
    · exact absurd hc' (hd j).2
  -- one call of `onAborted` either stores or calls
  have one : ∀ f g, .did n (.setAbort r f) false ∈ s.log → .did n (.setAbort r g) true ∈ s.log → False := by
    intro f g h1 h2
    obtain ⟨a, b, e⟩ := List.append_of_mem h1
    rw [e] at h2
    have first : ∀ {a b : List Event} {f : Fn} {x : Bool}, s.log = a ++ .did n (.setAbort r f) x :: b → ∀ g y, .did n (.setAbort r g) y ∉ a := by
      intro a b f x e g y hm
      have hr1 := hrun
      rw [e] at hr1
      obtain ⟨c, pre, hc, ht, rfl, rfl⟩ := hr1.did
      have := in_trace (S := sys) hm
      simp only [Ev.cid] at this
      rw [ht] at this
      simp [evs] at this
    rcases List.mem_append.1 h2 with k | k
    · exact first e g true k
    · rcases List.mem_cons.1 k with k | k
      · cases k
      · obtain ⟨c, d, rfl⟩ := List.append_of_mem k
        exact first (f := g) (x := true) (a := a ++ .did n (.setAbort r f) false :: c) (b := d) (by rw [e]; simp) f false (by simp)
  obtain ⟨-, k1⟩ := key h
  obtain ⟨k2, k3⟩ := key h'
  rcases k1 with ⟨rfl, h1, -⟩ | ⟨⟨op, id, h1⟩, g, hg⟩
  · rcases k3 with ⟨rfl, -⟩ | ⟨-, g, hg⟩
    · exact k2 f (by simp)
    · exact one f g (by rw [h]; exact List.mem_append_left _ h1) hg
  · rcases k3 with ⟨rfl, h3, -⟩ | ⟨⟨op', id', h3⟩, -⟩
    · exact one f' g (by rw [h']; exact List.mem_append_left _ h3) hg
    · by_cases e : j = j'
      · subst e; exact k2 f (by simp)
      · obtain ⟨a, b, rfl⟩ := List.append_of_mem h1
        have hr1 := hrun
        rw [h'] at hr1
        have hr2 : Run (a ++ .did j (.find op id true) (some r) :: (b ++ .did j (.run (.abort f r)) () :: u ++ .did j' (.run (.abort f' r)) () :: v)) := by simpa using hr1
        have h3' : .did j' (.find op' id' true) (some r) ∈ a ∨ .did j' (.find op' id' true) (some r) ∈ b ∨ .did j' (.find op' id' true) (some r) ∈ u := by
          simp at h3
          rcases h3 with k | ⟨k, -⟩ | k | k
          · exact .inl k
          · exact absurd k.symm e
          · exact .inr (.inl k)
          · exact .inr (.inr k)
        rcases h3' with k | k | k
        · obtain ⟨a1, a2, rfl⟩ := List.append_of_mem k
          rw [List.append_assoc, List.cons_append] at hr2
          exact hr2.takenOnce j op id true (by simp)
        · exact hr2.takenOnce j' op' id' true (by simp [k])
        · exact hr2.takenOnce j' op' id' true (by simp [k])

/-- The calls of user's functions. -/
def cbsIn (l : List Event) : List (Nat × Cb) := l.filterMap fun | .did n (.run cb) _ => some (n, cb) | _ => none

/-- C63 does not hold in general: the provider is ended, then destroyed; the requests stayed in its map, and the callback is called twice. -/
theorem aborted_twice : ∃ s, run (Calls.init sys) (oneRequest ++ .call (.onAborted 0 3) :: go 2 2 ++ .call .deinit :: go 3 9 ++ .call .destroy :: go 4 10) = some s ∧
    cbsIn s.log = [(1, .handler 9 0), (3, .abort 3 0), (4, .abort 3 0)] ∧ .returned 4 .unit ∈ s.log := by
  refine ⟨_, rfl, rfl, ?_⟩; decide

/-- The callback is called though the request was not aborted but answered. -/
theorem called_though_answered : ∃ s, run (Calls.init sys) (oneRequest ++ .call (.respond 0 (val 10)) :: go 2 5 ++ .call (.onAborted 0 3) :: go 3 4) = some s ∧
    sentIn s.log = [(2, 5, some 7, val 10)] ∧ .returned 2 (.status .success) ∈ s.log ∧ cbsIn s.log = [(1, .handler 9 0), (3, .abort 3 0)] := by
  refine ⟨_, rfl, rfl, ?_, rfl⟩; decide

/-- While `onAborted` calls the callback, no other call of the request goes on, not even one the callback makes (it waits for itself). -/
theorem callback_blocks : ∃ s, run (Calls.init sys) (oneRequest ++ .call (.incoming ⟨.abort, 5, 1, some 7, .null⟩) :: go 2 4 ++ .call (.onAborted 0 3) :: go 3 2 ++ [.call (.isValid 0)]) = some s ∧
    cbsIn s.log = [(1, .handler 9 0), (3, .abort 3 0)] ∧ ∀ e, step s (.step 4 e) = none := by
  refine ⟨_, rfl, rfl, fun e => rfl⟩

/-- The hypotheses are met: the callback is given while the abort is being delivered, and is called. -/
example : ∃ s, run (Calls.init sys) (oneRequest ++ [.call (.onAborted 0 3), .call (.incoming ⟨.abort, 5, 1, some 7, .null⟩)] ++ go 3 1 ++ go 2 2 ++ go 3 4) = some s ∧
    cbsIn s.log = [(1, .handler 9 0), (3, .abort 3 0)] ∧ Aborts s.log 3 0 ∧ .returned 2 .unit ∈ s.log ∧ .returned 3 (.bool true) ∈ s.log := by
  refine ⟨_, rfl, rfl, ⟨⟨true, by decide⟩, .inl ⟨⟨.abort, 5, 1, some 7, .null⟩, by decide⟩⟩, by decide, by decide⟩

/-- The same with the invalidation first. -/
example : ∃ s, run (Calls.init sys) (oneRequest ++ [.call (.onAborted 0 3), .call (.incoming ⟨.abort, 5, 1, some 7, .null⟩)] ++ go 3 2 ++ go 2 4 ++ go 3 2) = some s ∧
    cbsIn s.log = [(1, .handler 9 0), (2, .abort 3 0)] ∧ Aborts s.log 3 0 ∧ .returned 2 .unit ∈ s.log ∧ .returned 3 (.bool true) ∈ s.log := by
  refine ⟨_, rfl, rfl, ⟨⟨true, by decide⟩, .inl ⟨⟨.abort, 5, 1, some 7, .null⟩, by decide⟩⟩, by decide, by decide⟩

/-! ### C64: requests are handled -/

/-- An incoming request is given to the handler its operation has then, once, as a new valid request; without a handler, an error is sent back to the client. -/
theorem request_handled {as : List (Act sys)} {s : St} (hr : run (Calls.init sys) as = some s) {n : Nat} {m : Msg} {x : Res} (hm : m.code = .request) (hc : .called n (.incoming m) ∈ s.log) (hx : .returned n x ∈ s.log) :
    ∃ l rest o, s.log = l ++ .did n (.handler m.op) o :: rest ∧ o = handlerIn l m.op ∧
      match o with
      | some h => ∃ r, trace (S := sys) n s.log = [.called n (.incoming m), .did n (.handler m.op) (some h), .did n (.newReq m) r, .did n (.run (.handler h r)) (), .returned n x]
      | none => ∃ st, trace (S := sys) n s.log = [.called n (.incoming m), .did n (.handler m.op) none, .did n (.send m.addr ⟨.request, m.addr, m.op, m.id, .error⟩) st, .returned n x] := by
  obtain ⟨ops, ht, hp⟩ := returned_ops hr hc hx
  simp only [prog, onIncomingMessage, hm, onActionRequest, ask_bind, bind_ask, path_ask_ret] at hp
  obtain ⟨o, l', rfl, hp⟩ := hp
  have hin : .did n (.handler m.op) o ∈ s.log := mem_trace (S := sys) (n := n) (by rw [ht]; simp [evs])
  obtain ⟨l, rest, e⟩ := List.append_of_mem hin
  have hrun := run_of hr
  rw [e] at hrun
  refine ⟨l, rest, o, e, hrun.ok, ?_⟩
  cases o with
  | none =>
    simp only [sendBack, ask_bind, bind_ask, path_ask_ret] at hp
    obtain ⟨st, l', rfl, hp⟩ := hp
    simp at hp
    refine ⟨st, ?_⟩
    rw [ht, hp.1, ← hm]; rfl
  | some h =>
    simp only [ask_bind, bind_ask, path_ask_ret] at hp
    obtain ⟨r, l', rfl, u, l', rfl, hp⟩ := hp
    simp at hp
    refine ⟨r, ?_⟩
    rw [ht, hp.1]; rfl

/-- A handler is called with a request that is new and was valid and pending when it came; with a given request, only once. -/
theorem handler_once {as : List (Act sys)} {s : St} (hr : run (Calls.init sys) as = some s) {l rest : List Event} {n : Nat} {h : Fn} {r : Rid} (e : s.log = l ++ .did n (.run (.handler h r)) () :: rest) :
    (∃ m, .called n (.incoming m) ∈ l ∧ m.code = .request ∧ msgIn l r = some m) ∧ (∀ n' h', .did n' (.run (.handler h' r)) () ∉ l ∧ .did n' (.run (.handler h' r)) () ∉ rest) := by
  have hrun := run_of hr
  have key : ∀ {l rest : List Event} {n : Nat} {h : Fn}, s.log = l ++ .did n (.run (.handler h r)) () :: rest →
      ∃ m, .called n (.incoming m) ∈ l ∧ m.code = .request ∧ msgIn l r = some m ∧ .did n (.newReq m) r ∈ l ∧ ∀ h', .did n (.run (.handler h' r)) () ∉ l := by
    intro l rest n h e
    have hr1 := hrun
    rw [e] at hr1
    obtain ⟨c, pre, hc, ht, m, rfl, hm, rfl⟩ := hr1.did
    have hn : .did n (.newReq m) r ∈ l := pre_mem ht (by simp)
    refine ⟨m, hc, hm, hr1.left.msgOf hn, hn, fun h' hin => ?_⟩
    have := in_trace (S := sys) hin
    simp only [Ev.cid] at this
    rw [ht] at this
    simp [evs] at this
  -- a request is new once
  have one : ∀ {n n' : Nat} {m m' : Msg}, .did n (.newReq m) r ∈ s.log → .did n' (.newReq m') r ∈ s.log → n = n' := by
    intro n n' m m' h1 h2
    have aux : ∀ {n n' : Nat} {m m' : Msg} {a b : List Event}, s.log = a ++ .did n (.newReq m) r :: b → .did n' (.newReq m') r ∉ a := by
      intro n n' m m' a b e h2
      have hr1 := hrun
      rw [e] at hr1
      have := hr1.ok.1
      rw [hr1.left.msgOf h2] at this
      cases this
    obtain ⟨a, b, e⟩ := List.append_of_mem h1
    rw [e] at h2
    rcases List.mem_append.1 h2 with k | k
    · exact absurd k (aux e)
    · rcases List.mem_cons.1 k with k | k
      · cases k; rfl
      · obtain ⟨c, d, rfl⟩ := List.append_of_mem k
        exact absurd (by simp : Ev.did n (.newReq m) r ∈ a ++ .did n (.newReq m) r :: c) (aux (n := n') (m := m') (b := d) (by rw [e]; simp))
  obtain ⟨m, h1, h2, h3, h4, h5⟩ := key e
  refine ⟨⟨m, h1, h2, h3⟩, fun n' h' => ⟨fun hin => ?_, fun hin => ?_⟩⟩
  · obtain ⟨a, b, rfl⟩ := List.append_of_mem hin
    obtain ⟨m', -, -, -, k, -⟩ := key (l := a) (n := n') (h := h') (rest := b ++ .did n (.run (.handler h r)) () :: rest) (by rw [e]; simp)
    obtain rfl := one (n := n) (n' := n') (m' := m') (by rw [e]; exact List.mem_append_left _ h4) (by rw [e]; simp [k])
    exact h5 h' (by simp)
  · obtain ⟨a, b, rfl⟩ := List.append_of_mem hin
    obtain ⟨m', -, -, -, k, k5⟩ := key (l := l ++ .did n (.run (.handler h r)) () :: a) (n := n') (h := h') (rest := b) (by rw [e]; simp)
    obtain rfl := one (n := n) (n' := n') (m' := m') (by rw [e]; exact List.mem_append_left _ h4) (by rw [e]; simp at k ⊢; rcases k with k | k <;> simp [k])
    exact k5 h (by simp)

/-- The first handler of an operation is kept: `registerRequestHandler` succeeds if the operation has none. -/
theorem register_handler {as : List (Act sys)} {s : St} (hr : run (Calls.init sys) as = some s) {n : Nat} {op : OpId} {h : Fn} {x : Res} (hc : .called n (.registerHandler op (some h)) ∈ s.log) (hx : .returned n x ∈ s.log) :
    ∃ l rest b, s.log = l ++ .did n (.addHandler op h) b :: rest ∧ x = .bool b ∧ (b = true ↔ handlerIn l op = none) ∧ handlerIn (l ++ [.did n (.addHandler op h) b]) op = if b then some h else handlerIn l op := by
  obtain ⟨ops, ht, hp⟩ := returned_ops hr hc hx
  simp only [prog, registerHandler, ask_bind, path_ask_ret] at hp
  obtain ⟨b, l', rfl, hp⟩ := hp
  simp at hp
  have hin : .did n (.addHandler op h) b ∈ s.log := mem_trace (S := sys) (n := n) (by rw [ht]; simp [evs])
  obtain ⟨l, rest, e⟩ := List.append_of_mem hin
  have hrun := run_of hr
  rw [e] at hrun
  refine ⟨l, rest, b, e, hp.2, hrun.ok, ?_⟩
  rw [handlerIn_one]
  cases b <;> simp [handlerStep]

/-- What the handler of an operation is: one that was registered successfully, and after that neither another one nor a removal. -/
theorem handler_is {l : List Event} {op : OpId} {h : Fn} (hh : handlerIn l op = some h) :
    ∃ a n b, l = a ++ .did n (.addHandler op h) true :: b ∧ (∀ k g, .did k (.addHandler op g) true ∉ b) ∧ ∀ k x, .did k (.dropHandler op) x ∉ b := by
  revert hh
  refine snoc_induct (motive := fun l => handlerIn l op = some h → ∃ a n b, l = a ++ .did n (.addHandler op h) true :: b ∧ (∀ k g, .did k (.addHandler op g) true ∉ b) ∧ ∀ k x, .did k (.dropHandler op) x ∉ b) (by simp [handlerIn]) ?_ l
  intro l e ih hh
  rw [handlerIn_one] at hh
  have old : handlerIn l op = some h → (∀ k g, Ev.did k (.addHandler op g) true ≠ e) → (∀ k x, Ev.did k (.dropHandler op) x ≠ e) →
      ∃ a n b, l ++ [e] = a ++ .did n (.addHandler op h) true :: b ∧ (∀ k g, .did k (.addHandler op g) true ∉ b) ∧ ∀ k x, .did k (.dropHandler op) x ∉ b := by
    intro h1 h2 h3
    obtain ⟨a, n, b, rfl, h4, h5⟩ := ih h1
    exact ⟨a, n, b ++ [e], by simp, fun k g => by simp [h4 k g, h2 k g], fun k x => by simp [h5 k x, h3 k x]⟩
  cases e with
  | did n q a =>
    cases q with
    | addHandler op' g =>
      cases a with
      | false => exact old hh (by simp) (by simp)
      | true =>
        simp only [handlerStep] at hh
        split at hh
        · next e => cases hh; subst e; exact ⟨l, n, [], rfl, by simp, by simp⟩
        · next e => exact old hh (fun k g h => by cases h; exact e rfl) (by simp)
    | dropHandler op' =>
      simp only [handlerStep] at hh
      split at hh
      · cases hh
      · next e => exact old hh (by simp) (fun k x h => by cases h; exact e rfl)
    | _ => exact old hh (by simp) (by simp)
  | _ => exact old hh (by simp) (by simp)

/-- The hypotheses are met: two handlers, of which the first is kept; a request for it; then it is removed, and a request is answered with an error. -/
example : ∃ s, run (Calls.init sys) (oneRequest ++ .call (.registerHandler 1 (some 8)) :: go 2 2 ++ .call (ask1 6 8) :: go 3 4 ++ .call (.unregisterHandler 1) :: go 4 2 ++ .call (ask1 6 9) :: go 5 3) = some s ∧
    cbsIn s.log = [(1, .handler 9 0), (3, .handler 9 1)] ∧ sentIn s.log = [(5, 6, some 9, .error)] ∧ returnsIn s.log = [(0, .bool true), (1, .bool true), (2, .bool false), (3, .bool true), (4, .bool true), (5, .bool true)] :=
  ⟨_, rfl, rfl, rfl, rfl⟩

end Maf.Prov
