import Verif.Lemmas.ProviderHist
/-
C36, C37: the provider's side of requests.

All theorems are about `s.log`, the history of what calls of a provider and of its requests do, after any interleaving `as` of any calls (incoming messages, replies,
changes of properties, broadcasts, …) and any behaviour of the transport.
-/
namespace Maf.Prov
open Maf.Calls

/-- The rules of Spec/Provider.lean hold in every history. -/
theorem events_ok {as : List (Act sys)} {s : St} (hr : run (Calls.init sys) as = some s) : Hist EvOk s.log := (good_run hr).hist

theorem run_of {as : List (Act sys)} {s : St} (hr : run (Calls.init sys) as = some s) : Run s.log := ⟨as, s, hr, rfl⟩

/-! ### C36: replies -/

/-- A reply to request `r` is sent to the client that the request came from, and carries the operation and the id of the request (the client's own id), the payload given to the call, and the mark of a final or a partial reply. -/
theorem reply_addressed {as : List (Act sys)} {s : St} (hr : run (Calls.init sys) as = some s) {l rest : List Event} {n : Nat} {a : Addr} {m : Msg} {st : Status} {r : Rid} {p : Payload} {code : Code}
    (h : s.log = l ++ .did n (.send a m) st :: rest) (hc : Replies s.log n r p code) :
    ∃ k m0, .called k (.incoming m0) ∈ l ∧ m0.code = .request ∧ .did k (.newReq m0) r ∈ l ∧ a = m0.addr ∧ m = ⟨code, m0.addr, m0.op, m0.id, p⟩ := by
  have hrun := run_of hr
  rw [h] at hrun
  have fin : ∀ (m0 : Msg) (pre : List O) c, trace (S := sys) n l = .called n c :: evs (S := sys) n pre → ⟨.check r, .ok m0⟩ ∈ pre → ∃ k, .called k (.incoming m0) ∈ l ∧ m0.code = .request ∧ .did k (.newReq m0) r ∈ l := by
    intro m0 pre c ht hm
    obtain ⟨l1, l2, rfl⟩ := List.append_of_mem (pre_mem ht hm)
    have h1 : Run (l1 ++ .did n (.check r) (.ok m0) :: l2) := hrun.left
    have h2 : msgIn l1 r = some m0 := h1.ok.2.2
    obtain ⟨k, h3, h4, h5⟩ := h1.left.msgEvent h2
    exact ⟨k, List.mem_append_left _ h4, h5, List.mem_append_left _ h3⟩
  rcases hc with ⟨hc, rfl⟩ | ⟨hc, rfl⟩
  all_goals
    rw [h] at hc
    obtain ⟨-, pre, ht, hl⟩ := hrun.by hc
  · obtain ⟨r1, p1, m0, r', b, e, rfl, ha, hm⟩ : ∃ r1 p1 m0 r' b, Call.respond r p = .respond r1 p1 ∧ pre = [⟨.check r1, .ok m0⟩, ⟨.find m0.op m0.id true, some r'⟩, ⟨.invalidate r', b⟩] ∧ a = m0.addr ∧
        m = { m0 with payload := p1, code := .request } := by
      simpa [LocalOk] using hl
    cases e
    obtain ⟨k, h1, h2, h3⟩ := fin m0 _ _ ht (by simp)
    exact ⟨k, m0, h1, h2, h3, ha, hm⟩
  · obtain ⟨r1, p1, m0, r', e, rfl, ha, hm⟩ : ∃ r1 p1 m0 r', Call.update r p = .update r1 p1 ∧ pre = [⟨.check r1, .ok m0⟩, ⟨.find m0.op m0.id false, some r'⟩] ∧ a = m0.addr ∧
        m = { m0 with payload := p1, code := .partialUpdate } := by
      simpa [LocalOk] using hl
    cases e
    obtain ⟨k, h1, h2, h3⟩ := fin m0 _ _ ht (by simp)
    exact ⟨k, m0, h1, h2, h3, ha, hm⟩

/-- What a response takes has the same operation and id. -/
theorem taken_same {l : List Event} {n : Nat} {r r' : Rid} {p : Payload} {m0 : Msg} {pre : List O} (hrun : Run l) (ht : trace (S := sys) n l = .called n (.respond r p) :: evs (S := sys) n pre)
    (h1 : ⟨.check r, .ok m0⟩ ∈ pre) (h2 : ⟨.find m0.op m0.id true, some r'⟩ ∈ pre) (hd : Distinct l) : r' = r := by
  obtain ⟨l1, l2, e1⟩ := List.append_of_mem (pre_mem ht h1)
  obtain ⟨l3, l4, e2⟩ := List.append_of_mem (pre_mem ht h2)
  have hr1 := hrun
  rw [e1] at hr1
  have hr2 := hrun
  rw [e2] at hr2
  obtain ⟨k, hk, -⟩ := hr1.left.msgEvent (show msgIn l1 r = some m0 from hr1.ok.2.2)
  obtain ⟨-, m', hm', ho, hi⟩ := hr2.found
  obtain ⟨k', hk', -⟩ := hr2.left.msgEvent hm'
  exact (hd k m0 r k' m' r' (by rw [e1]; exact List.mem_append_left _ hk) (by rw [e2]; exact List.mem_append_left _ hk') ho.symm hi.symm).symm

theorem Distinct.left {l r : List Event} (h : Distinct (l ++ r)) : Distinct l := fun n m r1 n' m' r2 h1 h2 => h n m r1 n' m' r2 (List.mem_append_left _ h1) (List.mem_append_left _ h2)

/-- Partial: if no two requests have the same operation and the same id, a response completes its own request and no other. -/
theorem completes_own_partial {as : List (Act sys)} {s : St} (hr : run (Calls.init sys) as = some s) {l rest : List Event} {n : Nat} {b : Bool} {r r' : Rid} {p : Payload}
    (hd : Distinct s.log) (hc : .called n (.respond r p) ∈ s.log) (h : s.log = l ++ .did n (.invalidate r') b :: rest) : r' = r := by
  have hrun := run_of hr
  rw [h] at hrun hd hc
  obtain ⟨-, pre, ht, hl⟩ := hrun.by hc
  obtain ⟨r1, p1, m0, e, rfl⟩ : ∃ r1 p1 m0, Call.respond r p = .respond r1 p1 ∧ pre = [⟨.check r1, .ok m0⟩, ⟨.find m0.op m0.id true, some r'⟩] := by simpa [LocalOk] using hl
  cases e
  exact taken_same (m0 := m0) hrun.left ht (by simp) (by simp) hd.left

/-- After the invalidation a request is invalid for ever. -/
theorem invalidated {l rest : List Event} {n : Nat} {r : Rid} {b : Bool} (h : Run (l ++ .did n (.invalidate r) b :: rest)) : msgIn l r ≠ none ∧ validIn (l ++ .did n (.invalidate r) b :: rest) r = false := by
  have hm : msgIn l r ≠ none := by
    obtain ⟨c, pre, h1, ht, hl⟩ := h.did
    have hf : ∀ op id, ⟨.find op id true, some r⟩ ∈ pre → msgIn l r ≠ none := by
      intro op id hm
      obtain ⟨l1, l2, rfl⟩ := List.append_of_mem (pre_mem ht hm)
      obtain ⟨-, m, hm, -⟩ := h.left.found
      rw [h.left.msgLater hm]; simp
    rcases hl with ⟨r0, p, m0, -, rfl⟩ | ⟨m, -, -, rfl⟩ | ⟨-, rs, hm, hi⟩
    · exact hf _ _ (List.mem_cons_of_mem _ (List.mem_singleton.2 rfl))
    · exact hf _ _ (List.mem_singleton.2 rfl)
    · obtain ⟨l1, l2, rfl⟩ := List.append_of_mem (pre_mem ht hm)
      have h2 := h.left.ok.1
      rw [h2] at hi
      obtain ⟨m, hm⟩ := h.left.left.pendMsg hi
      rw [h.left.msgLater hm]; simp
  refine ⟨hm, ?_⟩
  have h' : Run ((l ++ [.did n (.invalidate r) b]) ++ rest) := by simpa using h
  have := h'.invalidLater (r := r) (by rw [msgIn_one]; exact hm) (by rw [validIn_one]; simp [validStep])
  simpa using this

/-- Partial (distinct ids): a final reply that was sent has completed its request: it is invalid from then on. -/
theorem respond_completes_partial {as : List (Act sys)} {s : St} (hr : run (Calls.init sys) as = some s) {n : Nat} {a : Addr} {m : Msg} {st : Status} {r : Rid} {p : Payload}
    (hd : Distinct s.log) (hc : .called n (.respond r p) ∈ s.log) (h : .did n (.send a m) st ∈ s.log) : ∃ b, .did n (.invalidate r) b ∈ s.log ∧ validIn s.log r = false := by
  have hrun := run_of hr
  obtain ⟨l, rest, e⟩ := List.append_of_mem h
  have hc' := hc
  rw [e] at hrun hc' hd
  obtain ⟨-, pre, ht, hl⟩ := hrun.by hc'
  obtain ⟨r1, p1, m0, r', b, e', rfl, -⟩ : ∃ r1 p1 m0 r' b, Call.respond r p = .respond r1 p1 ∧ pre = [⟨.check r1, .ok m0⟩, ⟨.find m0.op m0.id true, some r'⟩, ⟨.invalidate r', b⟩] ∧ a = m0.addr ∧
      m = { m0 with payload := p1, code := .request } := by
    simpa [LocalOk] using hl
  cases e'
  obtain rfl := taken_same (m0 := m0) (r' := r') hrun.left ht (by simp) (by simp) hd.left
  have hi := pre_mem ht (q := .invalidate r') (a := b) (by simp)
  have hi' : .did n (.invalidate r') b ∈ s.log := by rw [e]; exact List.mem_append_left _ hi
  refine ⟨b, hi', ?_⟩
  obtain ⟨x, y, e2⟩ := List.append_of_mem hi'
  have hrun := run_of hr
  rw [e2] at hrun ⊢
  exact (invalidated hrun).2

/-! ### C37: completed once -/

/-- Partial (distinct ids): at most one final reply to a request is sent. -/
theorem final_once_partial {as : List (Act sys)} {s : St} (hr : run (Calls.init sys) as = some s) {l rest : List Event} {n n' : Nat} {a a' : Addr} {m m' : Msg} {st st' : Status} {r : Rid} {p p' : Payload}
    (hd : Distinct s.log) (hc : .called n (.respond r p) ∈ s.log) (hc' : .called n' (.respond r p') ∈ s.log) (h : s.log = l ++ .did n (.send a m) st :: rest) : .did n' (.send a' m') st' ∉ rest := by
  intro hm
  have key : ∀ {l rest : List Event} {n : Nat} {a : Addr} {m : Msg} {st : Status} {p : Payload}, .called n (.respond r p) ∈ s.log → s.log = l ++ .did n (.send a m) st :: rest →
      ∃ op id, .did n (.find op id true) (some r) ∈ l ∧ ∀ a m st, .did n (.send a m) st ∉ l := by
    intro l rest n a m st p hc h
    have hrun := run_of hr
    have hd := hd
    rw [h] at hrun hc hd
    obtain ⟨-, pre, ht, hl⟩ := hrun.by hc
    obtain ⟨r1, p1, m0, r', b, e', rfl, -⟩ : ∃ r1 p1 m0 r' b, Call.respond r p = .respond r1 p1 ∧ pre = [⟨.check r1, .ok m0⟩, ⟨.find m0.op m0.id true, some r'⟩, ⟨.invalidate r', b⟩] ∧ a = m0.addr ∧
        m = { m0 with payload := p1, code := .request } := by
      simpa [LocalOk] using hl
    cases e'
    obtain rfl := taken_same (m0 := m0) (r' := r') hrun.left ht (by simp) (by simp) hd.left
    refine ⟨m0.op, m0.id, pre_mem ht (by simp), fun a m st hs => ?_⟩
    have := in_trace (S := sys) hs
    simp only [Ev.cid] at this
    rw [ht] at this
    simp [evs] at this
  obtain ⟨u, v, rfl⟩ := List.append_of_mem hm
  have h' : s.log = (l ++ .did n (.send a m) st :: u) ++ .did n' (.send a' m') st' :: v := by rw [h]; simp
  obtain ⟨op, id, h1, -⟩ := key hc h
  obtain ⟨op', id', h2, h3⟩ := key hc' h'
  by_cases e : n = n'
  · subst e; exact h3 a m st (by simp)
  · have hrun := run_of hr
    have h1' : .did n (.find op id true) (some r) ∈ s.log := by rw [h]; exact List.mem_append_left _ h1
    have h2' : .did n' (.find op' id' true) (some r) ∈ s.log := by rw [h']; exact List.mem_append_left _ h2
    obtain ⟨x, y, e1⟩ := List.append_of_mem h1'
    have hr1 := hrun
    rw [e1] at h2' hr1
    rcases List.mem_append.1 h2' with k | k
    · obtain ⟨z, w, rfl⟩ := List.append_of_mem k
      rw [List.append_assoc, List.cons_append] at hr1
      exact hr1.takenOnce _ _ _ _ (by simp : Ev.did n (.find op id true) (some r) ∈ w ++ .did n (.find op id true) (some r) :: y)
    · rcases List.mem_cons.1 k with k | k
      · cases k; exact e rfl
      · exact hr1.takenOnce _ _ _ _ k

/-- A reply that is made after its request was completed or aborted is refused, and nothing is sent. -/
theorem refused_after {as : List (Act sys)} {s : St} (hr : run (Calls.init sys) as = some s) {n k : Nat} {r : Rid} {b : Bool} {c : Call} {p : Payload} (hc : c = .respond r p ∨ c = .update r p)
    (h : Before (.did k (.invalidate r) b) (.called n c) s.log) : (∀ x, .returned n x ∈ s.log → x = .status .invalidCall) ∧ (∀ a m st, .did n (.send a m) st ∉ s.log) ∧ .crashed n ∉ s.log := by
  obtain ⟨l, m, rest, h⟩ := h
  have hcm : .called n c ∈ s.log := by rw [h]; simp
  have hchk : ∀ m0, .did n (.check r) m0 ∈ s.log → m0 = .invalid := by
    intro m0 hm
    obtain ⟨l', r', e⟩ := List.append_of_mem hm
    obtain ⟨y, rfl, -⟩ := before_call hr h rfl (by simp) e
    have hrun := run_of hr
    rw [e] at hrun
    have h1 := (invalidated hrun.left).2
    have h2 := hrun.ok.2
    cases m0 with
    | invalid => rfl
    | gone => rw [h1] at h2; cases h2.1
    | ok m0 => rw [h1] at h2; cases h2.1
  have hpath : ∀ {ops : List O} {x : P Res}, Path (prog c) ops x → (∀ ch, ⟨.check r, ch⟩ ∈ ops → ch = .invalid) → ops = [] ∨ (ops = [⟨.check r, .invalid⟩] ∧ x = .ret (.status .invalidCall)) := by
    intro ops x hp hi
    have : prog c = .ask (.check r) fun ch => (match ch with | .invalid => pure .invalidCall | .gone => pure .receiverUnavailable | .ok m => respondToRequest { m with payload := p, code := if c = .respond r p then .request else .partialUpdate } : P Status) >>= fun st => pure (.status st) := by
      rcases hc with rfl | rfl
      · simp only [prog, reply, ask_bind, bind_ask, if_true]; rfl
      · simp only [prog, reply, ask_bind, bind_ask, reduceCtorEq, if_false]; rfl
    rw [this, path_ask] at hp
    rcases hp with ⟨rfl, rfl⟩ | ⟨ch, ops', rfl, hp⟩
    · exact .inl rfl
    · obtain rfl := hi ch (by simp)
      simp at hp
      exact .inr (by simp [hp])
  refine ⟨fun x hx => ?_, fun a m st hs => ?_, fun hx => ?_⟩
  · obtain ⟨ops, ht, hp⟩ := returned_ops hr hcm hx
    rcases hpath hp (fun ch hm => hchk ch (mem_trace (S := sys) (n := n) (by rw [ht]; simp [mem_evs.2 hm]))) with rfl | ⟨-, hx⟩
    · rcases hc with rfl | rfl <;> cases hp
    · cases hx; rfl
  · obtain ⟨l', r', e⟩ := List.append_of_mem hs
    obtain ⟨c', pre, k, h1, h2, h3⟩ := did_path hr e
    have h1' : Ev.called n c' ∈ s.log := by rw [e]; exact List.mem_append_left _ h1
    obtain rfl := called_one hr hcm h1'
    rcases hpath h3 (fun ch hm => hchk ch (by rw [e]; exact List.mem_append_left _ (pre_mem h2 hm))) with rfl | ⟨-, hx⟩
    · rcases hc with rfl | rfl <;> cases h3
    · cases hx
  · obtain ⟨c', ops, h1, ht, hp⟩ := crashed_path hr hx
    obtain rfl := called_one hr hcm h1
    rcases hpath hp (fun ch hm => hchk ch (mem_trace (S := sys) (n := n) (by rw [ht]; simp [mem_evs.2 hm]))) with rfl | ⟨-, hx⟩
    · rcases hc with rfl | rfl <;> cases hp
    · cases hx

/-- Partial (distinct ids): once a final reply to a request was sent, every later reply to it, final or partial, is refused. -/
theorem after_final_partial {as : List (Act sys)} {s : St} (hr : run (Calls.init sys) as = some s) {n k : Nat} {r : Rid} {a : Addr} {m : Msg} {st : Status} {c : Call} {p p' : Payload} (hd : Distinct s.log)
    (hk : .called k (.respond r p') ∈ s.log) (hc : c = .respond r p ∨ c = .update r p) (h : Before (.did k (.send a m) st) (.called n c) s.log) :
    (∀ x, .returned n x ∈ s.log → x = .status .invalidCall) ∧ (∀ a m st, .did n (.send a m) st ∉ s.log) ∧ .crashed n ∉ s.log := by
  obtain ⟨l, mid, rest, h⟩ := h
  have hrun := run_of hr
  have h' : s.log = l ++ .did k (.send a m) st :: (mid ++ .called n c :: rest) := by rw [h]; simp
  rw [h'] at hrun hk hd
  obtain ⟨hk1, pre, ht, hl⟩ := hrun.by hk
  obtain ⟨r1, p1, m0, r', b, e', rfl, -⟩ : ∃ r1 p1 m0 r' b, Call.respond r p' = .respond r1 p1 ∧ pre = [⟨.check r1, .ok m0⟩, ⟨.find m0.op m0.id true, some r'⟩, ⟨.invalidate r', b⟩] ∧ a = m0.addr ∧
      m = { m0 with payload := p1, code := .request } := by
    simpa [LocalOk] using hl
  cases e'
  obtain rfl := taken_same (m0 := m0) (r' := r') hrun.left ht (by simp) (by simp) hd.left
  obtain ⟨x, y, e⟩ := List.append_of_mem (pre_mem ht (q := .invalidate r') (a := b) (by simp))
  exact refused_after hr (k := k) (r := r') (b := b) (p := p) hc ⟨x, y ++ .did k (.send a m) st :: mid, rest, by rw [h, e]; simp⟩

/-- Call `k` takes request `r`, to answer or to abort it. -/
def Completes (log : List Event) (k : Nat) (r : Rid) : Prop := ∃ op id, .did k (.find op id true) (some r) ∈ log

/-- A call that has taken a request and has returned has invalidated it. -/
theorem completes_invalidates {as : List (Act sys)} {s : St} (hr : run (Calls.init sys) as = some s) {k : Nat} {r : Rid} {x : Res} (h : Completes s.log k r) (hx : .returned k x ∈ s.log) :
    ∃ b, .did k (.invalidate r) b ∈ s.log := by
  obtain ⟨op, id, h⟩ := h
  obtain ⟨l, rest, e⟩ := List.append_of_mem h
  have hrun := run_of hr
  rw [e] at hrun
  obtain ⟨c, pre, h1, ht, hl⟩ := hrun.did
  have hc : Ev.called k c ∈ s.log := by rw [e]; exact List.mem_append_left _ h1
  obtain ⟨ops, ht', hp⟩ := returned_ops hr hc hx
  have hf : ⟨.find op id true, some r⟩ ∈ ops := by
    have := in_trace (S := sys) h
    simp only [Ev.cid] at this
    rw [ht'] at this
    have this : Ev.did k (.find op id true) (some r) ∈ evs (S := sys) k ops := by simpa using this
    exact mem_evs.1 this
  have fin : ∀ b, ⟨.invalidate r, b⟩ ∈ ops → ∃ b, Ev.did k (.invalidate r) b ∈ s.log := fun b hb => ⟨b, mem_trace (S := sys) (n := k) (by rw [ht']; simp [mem_evs.2 hb])⟩
  rcases hl with ⟨r0, p, m0, rfl, -, rfl, rfl, rfl⟩ | ⟨r0, p, m0, rfl, h0, -⟩ | ⟨m, rfl, hm, -, rfl, rfl, rfl⟩
  · simp only [prog, reply, ask_bind, bind_ask, path_ask_ret] at hp
    obtain ⟨ch, l', rfl, hp⟩ := hp
    cases ch with
    | invalid => simp at hp; simp [hp] at hf
    | gone => simp at hp; simp [hp] at hf
    | ok m1 =>
      simp only [respondToRequest, sendBack, reduceCtorEq, if_false, ask_bind, bind_ask, path_ask_ret] at hp
      obtain ⟨o, l', rfl, hp⟩ := hp
      cases o with
      | none => simp at hp
      | some r' =>
        simp only [bind_ask, path_ask_ret] at hp
        obtain ⟨b, l', rfl, hp⟩ := hp
        simp only [bind_ask, ask_bind, path_ask_ret] at hp
        obtain ⟨st, l', rfl, hp⟩ := hp
        simp at hp
        obtain ⟨rfl, -⟩ := hp
        simp at hf
        obtain ⟨-, rfl⟩ := hf
        exact fin b (by simp)
  · cases h0
  · simp only [prog, onIncomingMessage, hm, onRequestAborted, ask_bind, bind_ask, path_ask_ret] at hp
    obtain ⟨o, l', rfl, hp⟩ := hp
    cases o with
    | none => simp at hp; simp [hp] at hf
    | some r' =>
      simp only [abortRequest, ask_bind, bind_ask, path_ask_ret] at hp
      obtain ⟨b, l', rfl, o, l', rfl, hp⟩ := hp
      cases o with
      | none =>
        simp at hp; obtain ⟨rfl, -⟩ := hp
        simp at hf
        subst hf
        exact fin b (by simp)
      | some f =>
        simp only [ask_bind, bind_ask, path_ask_ret] at hp
        obtain ⟨u, l', rfl, hp⟩ := hp
        simp at hp; obtain ⟨rfl, -⟩ := hp
        simp at hf
        subst hf
        exact fin b (by simp)

/-- If something undefined happens, it is in a response to a request that another call, which overlaps the response, has taken to answer or to abort it. -/
theorem crash_needs_overlap {as : List (Act sys)} {s : St} (hr : run (Calls.init sys) as = some s) {n : Nat} (h : .crashed n ∈ s.log) :
    ∃ r p k, .called n (.respond r p) ∈ s.log ∧ k ≠ n ∧ Completes s.log k r ∧ ¬Serial s.log n k := by
  obtain ⟨c, ops, hc, ht, hp⟩ := crashed_path hr h
  obtain ⟨r, p, m0, rfl, rfl⟩ := crash_path hp
  have hrun := run_of hr
  have hf : .did n (.find m0.op m0.id true) none ∈ s.log := mem_trace (S := sys) (n := n) (by rw [ht]; simp [evs])
  have hk : .did n (.check r) (.ok m0) ∈ s.log := mem_trace (S := sys) (n := n) (by rw [ht]; simp [evs])
  obtain ⟨l1, l2, e1⟩ := List.append_of_mem hf
  have hr1 := hrun
  rw [e1] at hr1
  have hk1 : .did n (.check r) (.ok m0) ∈ l1 := by
    obtain ⟨c', pre, hc1, ht1, hl1⟩ := hr1.did
    rcases hl1 with ⟨r0, p0, m1, rfl, -, rfl, h1, h2⟩ | ⟨r0, p0, m1, -, h0, -⟩ | ⟨m, rfl, -⟩
    · have : Ev.did n (.check r0) (.ok m1) ∈ l1 := pre_mem ht1 (by simp)
      have h3 := in_trace (S := sys) (show Ev.did n (.check r0) (.ok m1) ∈ s.log by rw [e1]; exact List.mem_append_left _ this)
      simp only [Ev.cid] at h3
      rw [ht] at h3
      simp [evs] at h3
      obtain ⟨rfl, h3⟩ := h3
      subst h3
      exact this
    · cases h0
    · have := called_one hr hc (show Ev.called n (.incoming m) ∈ s.log by rw [e1]; exact List.mem_append_left _ hc1)
      cases this
  obtain ⟨l3, l4, e3⟩ := List.append_of_mem hk1
  have hr3 := hr1.left
  rw [e3] at hr3
  have hm3 : msgIn l3 r = some m0 := hr3.ok.2.2
  have hv3 : validIn l3 r = true := hr3.ok.2.1
  have hm1 : msgIn l1 r = some m0 := by rw [e3]; exact hr3.msgLater hm3
  have hnp : r ∉ pendIn l1 := by
    intro hin
    have h2 : none = (pendIn l1).find? (hasId l1 m0.op m0.id) := hr1.ok.1
    have := List.find?_eq_none.1 h2.symm r hin
    simp [hasId, hm1] at this
  obtain ⟨k, op, id, hk⟩ := hr1.left.takenBy hm1 hnp
  have hkl : .did k (.find op id true) (some r) ∈ s.log := by rw [e1]; exact List.mem_append_left _ hk
  have hne : k ≠ n := by
    rintro rfl
    have h3 := in_trace (S := sys) hkl
    simp only [Ev.cid] at h3
    rw [ht] at h3
    simp [evs] at h3
  refine ⟨r, p, k, hc, hne, ⟨op, id, hkl⟩, ?_⟩
  rintro (⟨x, c, a, m, b, e⟩ | ⟨x, c, a, m, b, e⟩)
  · exact crashed_returned hr h (x := x) (by rw [e]; simp)
  · have e4 : s.log = l3 ++ .did n (.check r) (.ok m0) :: (l4 ++ .did n (.find m0.op m0.id true) none :: l2) := by rw [e1, e3]; simp
    obtain ⟨y, rfl, -⟩ := before_call hr e rfl (by simp) e4
    have e5 : s.log = (a ++ [.returned k x]) ++ (y ++ .did n (.check r) (.ok m0) :: (l4 ++ .did n (.find m0.op m0.id true) none :: l2)) := by rw [e4]; simp
    obtain ⟨as', s', hr', hs'⟩ := run_prefix hr e5
    have hcomp : Completes s'.log k r := by
      refine ⟨op, id, ?_⟩
      rw [e5] at hkl
      rcases List.mem_append.1 hkl with h1 | h1
      · rw [hs']; exact h1
      · have h2 := in_trace (S := sys) h1
        simp only [Ev.cid] at h2
        rw [after_return hr (l := a) (x := x) (by rw [e5]; simp)] at h2
        cases h2
    obtain ⟨b', hi⟩ := completes_invalidates hr' hcomp (x := x) (by rw [hs']; simp)
    rw [hs'] at hi
    have hi' : Ev.did k (.invalidate r) b' ∈ a ++ .returned k x :: y := by
      simp only [List.mem_append, List.mem_singleton] at hi
      exact List.mem_append_left _ (hi.resolve_right (by simp))
    obtain ⟨u, v, e6⟩ := List.append_of_mem hi'
    have hr5 := hr3.left
    rw [e6] at hr5 hv3
    rw [(invalidated hr5).2] at hv3
    cases hv3

/-- Partial: if a response never overlaps another call that answers or aborts the same request, nothing undefined happens. -/
theorem no_crash_partial {as : List (Act sys)} {s : St} (hr : run (Calls.init sys) as = some s)
    (hs : ∀ n k r p, n ≠ k → .called n (.respond r p) ∈ s.log → Completes s.log k r → Serial s.log n k) : s.ub = false := by
  cases hu : s.ub with
  | false => rfl
  | true =>
    obtain ⟨n, hn⟩ := (run_ub hr).1 hu
    obtain ⟨r, p, k, h1, h2, h3, h4⟩ := crash_needs_overlap hr hn
    exact absurd (hs n k r p (Ne.symm h2) h1 h3) h4

/-! ### Cases -/

/-- The messages given to the transport: by which call, to whom, with which id and payload. -/
def sentIn (l : List Event) : List (Nat × Addr × Option Nat × Payload) := l.filterMap fun | .did n (.send a m) _ => some (n, a, m.id, m.payload) | _ => none

/-- What calls have returned. -/
def returnsIn (l : List Event) : List (Nat × Res) := l.filterMap fun | .returned n x => some (n, x) | _ => none

/-- Call `n` goes on `k` steps. -/
def go (n k : Nat) : List (Act sys) := List.replicate k (.step n .success)

/-- A request for operation 1 from address `a` with the client's id `id`. -/
def ask1 (a : Addr) (id : Nat) : Call := .incoming ⟨.request, a, 1, some id, .null⟩

def val (v : Nat) : Payload := .obj ⟨v, true, some v⟩

/-- There is a handler for operation 1 (call 0), and a request from client 5 with id 7 (call 1): request 0. -/
def oneRequest : List (Act sys) := .call (.registerHandler 1 (some 9)) :: go 0 2 ++ .call (ask1 5 7) :: go 1 4

/-- C36 does not hold in general: clients 5 and 6 both use the id 7. The reply to the request of client 6 (request 1) is sent to client 6, but it completes the request of client 5 (request 0):
the reply to that is refused, and client 5 never gets one; request 1 is still valid, and its second reply is sent. -/
theorem wrong_completed : ∃ s, run (Calls.init sys) (oneRequest ++ .call (ask1 6 7) :: go 2 4 ++ .call (.respond 1 (val 20)) :: go 3 5 ++ .call (.respond 0 (val 10)) :: go 4 2 ++ .call (.respond 1 (val 21)) :: go 5 5) = some s ∧
    sentIn s.log = [(3, 6, some 7, val 20), (5, 6, some 7, val 21)] ∧ validIn s.log 0 = false ∧ .returned 4 (.status .invalidCall) ∈ s.log ∧ .did 3 (.invalidate 0) true ∈ s.log := by
  refine ⟨_, rfl, rfl, rfl, ?_, ?_⟩ <;> decide

/-- C37 does not hold in general: two calls respond to a request at once; both see that it is valid; the second one finds nothing and dereferences a null pointer. -/
theorem racing_replies_crash : ∃ s, run (Calls.init sys) (oneRequest ++ [.call (.respond 0 (val 10)), .call (.respond 0 (val 20)), .step 2 .success, .step 3 .success, .step 2 .success, .step 3 .success, .step 3 .success]) = some s ∧
    s.ub = true ∧ .crashed 3 ∈ s.log := by
  refine ⟨_, rfl, rfl, ?_⟩; decide

/-- The client's abort arrives while the handler responds. -/
theorem abort_reply_crash : ∃ s, run (Calls.init sys) (oneRequest ++ [.call (.respond 0 (val 10)), .step 2 .success, .call (.incoming ⟨.abort, 5, 1, some 7, .null⟩), .step 3 .success, .step 2 .success, .step 2 .success]) = some s ∧
    s.ub = true ∧ .crashed 2 ∈ s.log := by
  refine ⟨_, rfl, rfl, ?_⟩; decide

/-- A partial reply is sent after the final one. -/
theorem update_after_final : ∃ s, run (Calls.init sys) (oneRequest ++ [.call (.update 0 (val 10)), .step 2 .success, .step 2 .success, .call (.respond 0 (val 20))] ++ go 3 5 ++ go 2 2) = some s ∧
    sentIn s.log = [(3, 5, some 7, val 20), (2, 5, some 7, val 10)] ∧ .returned 2 (.status .success) ∈ s.log := by
  refine ⟨_, rfl, rfl, ?_⟩; decide

/-- The hypotheses are met: two requests with different ids; a partial and a final reply to the second one, then refused ones, then the final one to the first. -/
example : ∃ s, run (Calls.init sys) (oneRequest ++ .call (ask1 6 8) :: go 2 4 ++ .call (.update 1 (val 20)) :: go 3 4 ++ .call (.respond 1 (val 21)) :: go 4 5 ++ .call (.respond 1 (val 22)) :: go 5 2 ++ .call (.update 1 (val 23)) :: go 6 2 ++
    .call (.respond 0 (val 10)) :: go 7 5) = some s ∧ sentIn s.log = [(3, 6, some 8, val 20), (4, 6, some 8, val 21), (7, 5, some 7, val 10)] ∧
    .returned 5 (.status .invalidCall) ∈ s.log ∧ .returned 6 (.status .invalidCall) ∈ s.log ∧ s.ub = false ∧ .called 4 (.respond 1 (val 21)) ∈ s.log ∧ .did 4 (.invalidate 1) true ∈ s.log := by
  refine ⟨_, rfl, rfl, ?_, ?_, rfl, ?_, ?_⟩ <;> decide

/-- The requests that have arrived. -/
def newsIn (l : List Event) : List (OpId × Option Nat × Rid) := l.filterMap fun | .did _ (.newReq m) r => some (m.op, m.id, r) | _ => none

theorem distinct_of {l : List Event} (h : ∀ x ∈ newsIn l, ∀ y ∈ newsIn l, x.1 = y.1 → x.2.1 = y.2.1 → x.2.2 = y.2.2) : Distinct l :=
  fun _ m r _ m' r' h1 h2 ho hi => h (m.op, m.id, r) (List.mem_filterMap.2 ⟨_, h1, rfl⟩) (m'.op, m'.id, r') (List.mem_filterMap.2 ⟨_, h2, rfl⟩) ho hi

/-- Its requests have different ids. -/
example : ∃ s, run (Calls.init sys) (oneRequest ++ .call (ask1 6 8) :: go 2 4) = some s ∧ Distinct s.log ∧ pendIn s.log = [0, 1] := by
  refine ⟨_, rfl, distinct_of ?_, rfl⟩; decide

theorem before_of {l : List Event} {a b : Event} (i j : Nat) (h : i < j) (ha : l[i]? = some a) (hb : l[j]? = some b) : Before a b l := by
  obtain ⟨hi, ha⟩ := List.getElem?_eq_some_iff.1 ha
  obtain ⟨hj, hb⟩ := List.getElem?_eq_some_iff.1 hb
  refine ⟨l.take i, (l.take j).drop (i + 1), l.drop (j + 1), ?_⟩
  have h1 : l = l.take j ++ b :: l.drop (j + 1) := by rw [← hb, List.getElem_cons_drop, List.take_append_drop]
  have h2 : l.take j = l.take i ++ a :: (l.take j).drop (i + 1) := by
    have hl : i < (l.take j).length := by rw [List.length_take]; omega
    have : (l.take j)[i] = a := by rw [List.getElem_take]; exact ha
    rw [← this, List.getElem_cons_drop]
    have h3 : l.take i = (l.take j).take i := by rw [List.take_take]; congr 1; omega
    rw [h3, List.take_append_drop]
  rw [← h2]; exact h1

/-- The hypothesis of `no_crash_partial` is met: a response, a second one after it that is refused, and the client's abort after that. -/
example : ∃ s, run (Calls.init sys) (oneRequest ++ .call (.respond 0 (val 10)) :: go 2 5 ++ .call (.respond 0 (val 11)) :: go 3 2 ++ .call (.incoming ⟨.abort, 5, 1, some 7, .null⟩) :: go 4 2) = some s ∧ Completes s.log 2 0 ∧
    .returned 3 (.status .invalidCall) ∈ s.log ∧ ∀ n k r p, n ≠ k → .called n (.respond r p) ∈ s.log → Completes s.log k r → Serial s.log n k := by
  refine ⟨_, rfl, ⟨1, some 7, by decide⟩, by decide, ?_⟩
  rintro n k r p hne h ⟨op, id, h'⟩
  have h1 : (n, r) ∈ [(2, 0), (3, 0)] := List.mem_filterMap (f := fun | .called n (.respond r _) => some (n, r) | _ => none).2 ⟨_, h, rfl⟩
  have h2 : (k, r) ∈ [(2, 0)] := List.mem_filterMap (f := fun | .did k (.find _ _ true) (some r) => some (k, r) | _ => none).2 ⟨_, h', rfl⟩
  simp at h1 h2
  obtain ⟨rfl, rfl⟩ := h2
  obtain ⟨rfl, -⟩ | ⟨rfl, -⟩ := h1
  · exact absurd rfl hne
  · exact .inr ⟨.status .success, .respond 0 (val 11), before_of 13 14 (by decide) rfl rfl⟩

end Maf.Prov
