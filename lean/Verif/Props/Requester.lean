import Verif.Lemmas.RequesterLocal
/-
C34, C35, C40, C41, C42 (what is dropped), C45: the client's side of a service.

All theorems are about `s.log`, the history of what calls of a requester do, after any interleaving `as` of any calls (requests, aborts,
registrations, incoming messages, changes of availability) and any behaviour of the transport and of callbacks.
-/
namespace Maf.Req

/-- The rules of Spec/Requester.lean hold in every history. -/
theorem events_ok {as : List Act} {s : State} (hr : run init as = some s) : Hist EvOk s.log := (good_of hr).hist

/-- Every call does what the table in Spec/Requester.lean says, up to some point. -/
theorem calls_follow {as : List Act} {s : State} (hr : run init as = some s) (n : Cid) : Follows n s.log := follows hr n

/-- A call that has returned has done all the table says. -/
theorem returned_complete {as : List Act} {s : State} (hr : run init as = some s) {n : Cid} {c : Call} {r : Res} (hc : .called n c ∈ s.log) (h : .returned n r ∈ s.log) :
    Full n c (trace n s.log) := by
  obtain ⟨c', h1, h2⟩ := complete (follows hr n) h
  rwa [called_one (follows hr n) hc h1]

/-! ### C34: a request is answered at most once -/

/-- Where a stored request comes from. -/
theorem stored_by {as : List Act} {s : State} (hr : run init as = some s) {l r : List Ev} {k : Cid} {op : Op} {id : Id} {tg : Target} (h : s.log = l ++ .stored k op id tg :: r) :
    (∃ p f, tg = .user f ∧ .called k (.request op p f) ∈ l) ∨ (∃ f, tg = .user (some f) ∧ .called k (.getAsync op f) ∈ l) ∨
    (∃ p t, tg = .sync ∧ .called k (.requestSync op p t) ∈ l) ∨ ∃ t, tg = .sync ∧ .called k (.getSync op t) ∈ l := by
  obtain ⟨c, h1, h2, -⟩ := local_called (e := .stored k op id tg) (follows hr k) h
  simp only [List.mem_append, List.mem_singleton, reduceCtorEq, or_false, Ev.cid] at h2
  rcases h1 with ⟨p, f, rfl, rfl⟩ | ⟨p, t, rfl, rfl⟩ | ⟨f, rfl, rfl⟩ | ⟨t, rfl, rfl⟩
  · exact .inl ⟨p, f, rfl, h2⟩
  · exact .inr (.inr (.inl ⟨p, t, rfl, h2⟩))
  · exact .inr (.inl ⟨f, rfl, h2⟩)
  · exact .inr (.inr (.inr ⟨t, rfl, h2⟩))

/-- A callback that is called in the delivery of a response is the callback of the request with the operation and the id of the response; it gets the payload of
the response, and only once in this delivery. The request was pending when the response was matched to it. -/
theorem answer_reaches_its_request {as : List Act} {s : State} (hr : run init as = some s) {l r : List Ev} {n : Cid} {m : Msg} {f : Fn} {p : Option Val}
    (hc : .called n (.incoming m true) ∈ s.log) (ha : isAnswer m.code = true) (h : s.log = l ++ .ran n f p :: r) :
    p = m.payload ∧ (∀ f' p', .ran n f' p' ∉ l ∧ .ran n f' p' ∉ r) ∧
    ∃ id k l1 l2, m.id = some id ∧ l = l1 ++ .taken n m (some (.user (some f))) :: l2 ∧ (id, .user (some f)) ∈ pendIn l1 m.op ∧ .stored k m.op id (.user (some f)) ∈ l1 ∧
      ((∃ q, .called k (.request m.op q (some f)) ∈ l1) ∨ .called k (.getAsync m.op f) ∈ l1) := by
  have key : ∀ {l r : List Ev} {f : Fn} {p : Option Val}, s.log = l ++ .ran n f p :: r → p = m.payload ∧ trace n l = [.called n (.incoming m true), .taken n m (some (.user (some f)))] := by
    intro l r f p h
    obtain ⟨c, h1, h2, h3⟩ := local_called (e := .ran n f p) (follows hr n) h
    have := h3 _ hc
    subst this
    rcases h1 with ⟨m', hm, -, hp, ht⟩ | ⟨m', fs, hm, hu, -⟩ | ⟨op, hm, -⟩ | ⟨op, v, hm, -⟩
    · cases hm; exact ⟨hp, ht⟩
    · cases hm; exfalso; revert ha hu; cases m.code <;> simp [isAnswer, isUpdate]
    · cases hm
    · cases hm
  obtain ⟨hp, ht⟩ := key h
  have htk : .taken n m (some (.user (some f))) ∈ l := mem_trace (n := n) (by rw [ht]; simp)
  refine ⟨hp, fun f' p' => ⟨fun hm => ?_, fun hm => ?_⟩, ?_⟩
  · have : Ev.ran n f' p' ∈ trace n l := List.mem_filter.2 ⟨hm, by simp [Ev.cid]⟩
    rw [ht] at this; simp at this
  · obtain ⟨a, b, rfl⟩ := List.append_of_mem hm
    obtain ⟨-, ht'⟩ := key (l := l ++ .ran n f p :: a) (r := b) (f := f') (p := p') (by rw [h]; simp)
    have : Ev.ran n f p ∈ trace n (l ++ .ran n f p :: a) := List.mem_filter.2 ⟨by simp, by simp [Ev.cid]⟩
    rw [ht'] at this; simp at this
  · obtain ⟨l1, l2, hl⟩ := List.append_of_mem htk
    have hl1 : s.log = l1 ++ .taken n m (some (.user (some f))) :: (l2 ++ .ran n f p :: r) := by rw [h, hl]; simp
    obtain ⟨id, hid, hpd⟩ := ((events_ok hr).all _ _ _ hl1 (.user (some f))).1 rfl
    obtain ⟨k, hk⟩ := mem_pendIn hpd
    refine ⟨id, k, l1, l2, hid, hl, hpd, hk, ?_⟩
    obtain ⟨x, y, hxy⟩ := List.append_of_mem hk
    have hx : ∀ e ∈ x, e ∈ l1 := fun e he => by rw [hxy]; simp [he]
    rcases stored_by hr (k := k) (op := m.op) (id := id) (tg := .user (some f)) (l := x) (r := y ++ .taken n m (some (.user (some f))) :: (l2 ++ .ran n f p :: r)) (by rw [hl1, hxy]; simp) with
      ⟨q, f', e, hq⟩ | ⟨f', e, hq⟩ | ⟨q, t, e, hq⟩ | ⟨t, e, hq⟩
    · cases e; exact .inl ⟨q, hx _ hq⟩
    · cases e; exact .inr (hx _ hq)
    · cases e
    · cases e

/-- A response is matched to the request with its operation and id, if that is pending; the delivery calls its callback (if it is not an empty one), if it ends. -/
theorem answer_delivered {as : List Act} {s : State} (hr : run init as = some s) {n : Cid} {m : Msg} {x : Res} (hc : .called n (.incoming m true) ∈ s.log)
    (ha : isAnswer m.code = true) (hx : .returned n x ∈ s.log) :
    ∃ l r tg, s.log = l ++ .taken n m tg :: r ∧ (∀ g, tg = some g ↔ ∃ id, m.id = some id ∧ (id, g) ∈ pendIn l m.op) ∧ ∀ f, tg = some (.user (some f)) → .ran n f m.payload ∈ r := by
  have hf := returned_complete hr hc hx
  have hnu : isUpdate m.code = false := by revert ha; cases m.code <;> simp [isAnswer, isUpdate]
  have key : ∃ tg, .taken n m tg ∈ trace n s.log ∧ ∀ f, tg = some (.user (some f)) → .ran n f m.payload ∈ trace n s.log := by
    generalize trace n s.log = t at hf
    cases hf with
    | ignored h => simp [ha] at h
    | update h => rw [h] at hnu; cases hnu
    | _ => exact ⟨_, .tail _ (.head _), fun f h => by cases h <;> simp⟩
  obtain ⟨tg, h1, h2⟩ := key
  obtain ⟨l, r, hl⟩ := List.append_of_mem (mem_trace h1)
  refine ⟨l, r, tg, hl, (events_ok hr).all _ _ _ hl, fun f hf => ?_⟩
  have hran := mem_trace (h2 f hf)
  rw [hl] at hran
  rcases List.mem_append.1 hran with k | k
  · obtain ⟨a, b, rfl⟩ := List.append_of_mem k
    -- the response would be matched twice
    obtain ⟨c, q, -, q3⟩ := local_called (e := .taken n m tg) (follows hr n) (l := a ++ .ran n f m.payload :: b) (r := r) (by rw [hl])
    have := q.2.2
    have hin : Ev.ran n f m.payload ∈ trace n (a ++ .ran n f m.payload :: b) := List.mem_filter.2 ⟨by simp, by simp [Ev.cid]⟩
    simp only [Ev.cid] at this
    rw [this] at hin; simp at hin
  · simpa using k

/-- After a final response was matched to a request, no response is: there is at most one final response, and there are no partial updates after it. -/
theorem final_once {as : List Act} {s : State} (hr : run init as = some s) {l r : List Ev} {n n' : Cid} {m m' : Msg} {tg tg' : Target}
    (h : s.log = l ++ .taken n m (some tg) :: r) (hf : m.code ≠ .partialUpdate) (h' : .taken n' m' (some tg') ∈ r) : m'.id ≠ m.id := by
  obtain ⟨id, hid, hp⟩ := ((events_ok hr).all _ _ _ h tg).1 rfl
  rw [hid]
  obtain ⟨k, hk⟩ := mem_pendIn hp
  exact ended_not_taken (events_ok hr) h (e := .taken n m (some tg)) (id := id) ⟨hid, hf, by simp⟩ ⟨k, _, _, hk⟩ h'

/-- Deliveries of responses for request `id` do not overlap. -/
def Serial (log : List Ev) (id : Id) : Prop :=
  ∀ a b n n' m m', log = a ++ .called n' (.incoming m' true) :: b → m'.id = some id → .called n (.incoming m true) ∈ a → m.id = some id → ∃ x, .returned n x ∈ a

/-- The full claim is that after a request's callback was called with the final response, it is not called for this request again. Proved: so it is when the deliveries of responses for
the request do not overlap. (`partial_after_final`: two overlapping deliveries call the callback in the wrong order.) -/
theorem never_after_final_partial {as : List Act} {s : State} (hr : run init as = some s) {l r : List Ev} {n n' : Cid} {m m' : Msg} {f f' : Fn} {p p' : Option Val} {id : Id}
    (hs : Serial s.log id) (hid : m.id = some id) (hid' : m'.id = some id)
    (hc : .called n (.incoming m true) ∈ s.log) (ha : isAnswer m.code = true) (hf : m.code ≠ .partialUpdate) (hc' : .called n' (.incoming m' true) ∈ s.log) (ha' : isAnswer m'.code = true)
    (h : s.log = l ++ .ran n f p :: r) : .ran n' f' p' ∉ r := by
  intro hm
  obtain ⟨-, hno, -, -, l1, l2, -, hl, -⟩ := answer_reaches_its_request hr hc ha h
  by_cases e : n' = n
  · subst e; exact (hno f' p').2 hm
  obtain ⟨r1, r2, rfl⟩ := List.append_of_mem hm
  have h' : s.log = (l ++ .ran n f p :: r1) ++ .ran n' f' p' :: r2 := by rw [h]; simp
  obtain ⟨-, -, -, -, q1, q2, -, hq, -⟩ := answer_reaches_its_request hr hc' ha' h'
  have hl1 : s.log = l1 ++ .taken n m (some (.user (some f))) :: (l2 ++ .ran n f p :: (r1 ++ .ran n' f' p' :: r2)) := by rw [h, hl]; simp
  have hq1 : s.log = q1 ++ .taken n' m' (some (.user (some f'))) :: (q2 ++ .ran n' f' p' :: r2) := by rw [h', hq]; simp
  -- the second matched before the first, so its delivery had begun
  rcases places (hl1.symm.trans hq1) with ⟨-, e', -⟩ | ⟨c, k1, k2⟩ | ⟨c, k1, k2⟩
  · cases e'; exact e rfl
  · exact final_once hr hl1 hf (n' := n') (m' := m') (tg' := .user (some f')) (by rw [k2]; simp) (hid'.trans hid.symm)
  · -- both deliveries begin before their matches
    have call : ∀ {k : Cid} {M : Msg} {tg : Option Target} {x y : List Ev}, s.log = x ++ .taken k M tg :: y → .called k (.incoming M true) ∈ x := by
      intro k M tg x y hx
      obtain ⟨c, w1, w2, -⟩ := local_called (e := .taken k M tg) (follows hr k) hx
      obtain ⟨rfl, -, w⟩ := w1
      simp only [List.mem_append, List.mem_singleton, reduceCtorEq, or_false, Ev.cid] at w2
      exact w2
    have c1 := call hl1
    have c2 := call hq1
    obtain ⟨a, b, hab⟩ := List.append_of_mem c1
    obtain ⟨a', b', hab'⟩ := List.append_of_mem c2
    have e1 : s.log = a ++ .called n (.incoming m true) :: (b ++ .taken n m (some (.user (some f))) :: (l2 ++ .ran n f p :: (r1 ++ .ran n' f' p' :: r2))) := by rw [hl1, hab]; simp
    have e2 : s.log = a' ++ .called n' (.incoming m' true) :: (b' ++ .taken n' m' (some (.user (some f'))) :: (q2 ++ .ran n' f' p' :: r2)) := by rw [hq1, hab']; simp
    -- a returned delivery does nothing more
    have done : ∀ {k : Cid} {e : Ev} {x y : List Ev}, s.log = x ++ y → e ∈ y → e.cid = k → (∃ z, .returned k z ∈ x) → False := fun {k e x y} hx he hk ⟨z, hz⟩ => by
      have hf := follows hr k
      rw [hx] at hf
      exact complete_silent hf hz e he hk
    rcases places (e1.symm.trans e2) with ⟨-, e', -⟩ | ⟨d, w1, w2⟩ | ⟨d, w1, w2⟩
    · cases e'; exact e rfl
    · -- n began first: it has returned before n' began, but it matched later
      refine done (k := n) (e := .taken n m (some (.user (some f)))) (x := a') (y := _) e2 ?_ rfl (hs a' _ n n' m m' e2 hid' (by rw [w1]; simp) hid)
      have : l1 = a' ++ .called n' (.incoming m' true) :: (b' ++ .taken n' m' (some (.user (some f'))) :: c) := by rw [k1, hab']; simp
      have hh : a' ++ .called n' (.incoming m' true) :: (b' ++ .taken n' m' (some (.user (some f'))) :: (q2 ++ .ran n' f' p' :: r2)) =
          a' ++ (.called n' (.incoming m' true) :: (b' ++ .taken n' m' (some (.user (some f'))) :: c) ++ .taken n m (some (.user (some f))) :: (l2 ++ .ran n f p :: (r1 ++ .ran n' f' p' :: r2))) := by
        rw [← e2, hl1, this]; simp
      rw [List.append_cancel_left hh]
      simp
    · refine done (k := n') (e := .ran n' f' p') (x := a) e1 (by simp) rfl (hs a _ n' n m' m e1 hid (by rw [w1]; simp) hid')

/-- Which callbacks were called, by which call and with what, in order. -/
def ransIn (l : List Ev) : List (Cid × Fn × Option Val) := l.filterMap fun | .ran n f p => some (n, f, p) | _ => none

def msg (code : Code) (id : Id) (v : Val) : Msg := ⟨code, 1, some id, some v⟩

/-- Prefix of the examples: the service is available, and a request for operation 1 with callback 5 is sent (its id is 0). -/
def requested : List Act := [.call (.status .available), .step 0, .call (.request 1 (some 7) (some 5)), .step 1, .step 1, .step 1, .back 1 .success]

/-- C34 does not hold in general: a partial update is matched, then the final response; then the callback is called for the final response, and then for the partial update. -/
theorem partial_after_final : ∃ s, run init (requested ++ [.call (.incoming (msg .partialUpdate 0 10) true), .call (.incoming (msg .request 0 20) true),
    .step 2, .step 2, .step 3, .step 3, .step 3, .step 2, .back 3 .success, .back 2 .success]) = some s ∧ ransIn s.log = [(3, 5, some 20), (2, 5, some 10)] :=
  ⟨_, rfl, rfl⟩

/-- The hypotheses are met: a partial update and the final response one after the other; a duplicate and a response for another id call nothing. -/
example : ∃ s, run init (requested ++ [.call (.incoming (msg .partialUpdate 0 10) true), .step 2, .step 2, .step 2, .back 2 .success, .call (.incoming (msg .request 0 20) true), .step 3, .step 3,
    .step 3, .back 3 .success, .call (.incoming (msg .request 0 21) true), .step 4, .step 4, .call (.incoming (msg .request 9 22) true), .step 5, .step 5]) = some s ∧
    ransIn s.log = [(2, 5, some 10), (3, 5, some 20)] ∧ .taken 4 (msg .request 0 21) none ∈ s.log ∧ (∃ x, .returned 5 x ∈ s.log) := by
  refine ⟨_, rfl, rfl, ?_, ⟨none, none, none⟩, ?_⟩ <;> decide

/-! ### C35: an aborted request is never answered -/

/-- The messages call `n` has given to the transport. -/
def sendsOf (n : Cid) (l : List Ev) : List Msg := l.filterMap fun | .sent k m => if k = n then some m else none | _ => none

theorem sendsOf_trace {n : Cid} (log : List Ev) : sendsOf n log = (trace n log).filterMap (fun | .sent _ m => some m | _ => none) := by
  unfold sendsOf
  induction log with
  | nil => rfl
  | cons e log ih =>
    rw [List.filterMap_cons]
    by_cases he : e.cid = n
    · have : trace n (e :: log) = e :: trace n log := by simp [trace, he]
      rw [this, List.filterMap_cons, ih]
      cases e <;> simp_all [Ev.cid]
    · have : trace n (e :: log) = trace n log := by simp [trace, he]
      rw [this, ih]
      cases e <;> simp_all [Ev.cid]

/-- When a request has ended and no delivery of a response for it is under way, its callback is not called for it. -/
theorem ended_no_callback {as : List Act} {s : State} (hr : run init as = some s) {l r : List Ev} {e : Ev} {n' : Cid} {id : Id} {m : Msg} {f : Fn} {p : Option Val}
    (h : s.log = l ++ e :: r) (he : Ends id e) (hst : ∃ k op tg, .stored k op id tg ∈ l) (hq : ∀ k m, .called k (.incoming m true) ∈ l → m.id = some id → ∃ x, .returned k x ∈ l)
    (hc : .called n' (.incoming m true) ∈ s.log) (ha : isAnswer m.code = true) (hid : m.id = some id) : .ran n' f p ∉ r := by
  intro hm
  obtain ⟨r1, r2, rfl⟩ := List.append_of_mem hm
  have h' : s.log = (l ++ e :: r1) ++ .ran n' f p :: r2 := by rw [h]; simp
  obtain ⟨-, -, -, -, q1, q2, -, hq1, -⟩ := answer_reaches_its_request hr hc ha h'
  have e2 : s.log = q1 ++ .taken n' m (some (.user (some f))) :: (q2 ++ .ran n' f p :: r2) := by rw [h', hq1]; simp
  obtain ⟨c', w1, w2, -⟩ := local_called (e := .taken n' m (some (.user (some f)))) (follows hr n') e2
  obtain ⟨rfl, -, -⟩ := w1
  simp only [List.mem_append, List.mem_singleton, reduceCtorEq, or_false, Ev.cid] at w2
  have fin : .called n' (.incoming m true) ∉ l := fun hin => by
    obtain ⟨x, hx⟩ := hq n' m hin hid
    have hf := follows hr n'
    rw [h] at hf
    exact complete_silent hf hx (.ran n' f p) (by simp) rfl
  rcases places (h.symm.trans e2) with ⟨k1, -, -⟩ | ⟨c, k1, k2⟩ | ⟨c, k1, k2⟩
  · exact fin (k1 ▸ w2)
  · exact ended_not_taken (events_ok hr) h he hst (n := n') (m := m) (tg := .user (some f)) (by rw [k2]; simp) hid
  · exact fin (by rw [k1]; simp [w2])

/-- An abort of a call is sent at most once, after the request was found pending and removed. -/
theorem abort_sent {as : List Act} {s : State} (hr : run init as = some s) {l r : List Ev} {n : Cid} {m : Msg} (h : s.log = l ++ .sent n m :: r) (hm : m.code = .abort) :
    ∃ id l1 l2, m.id = some id ∧ l = l1 ++ .looked n m.op id true :: l2 ∧ (∃ tg, (id, tg) ∈ pendIn l1 m.op) ∧ ∀ n' m', .sent n' m' ∈ r → m'.code = .abort → m'.id ≠ some id := by
  have key : ∀ {l r : List Ev} {n : Cid} {m : Msg}, s.log = l ++ .sent n m :: r → m.code = .abort →
      ∃ id l1 l2, m.id = some id ∧ l = l1 ++ .looked n m.op id true :: l2 ∧ (∃ tg, (id, tg) ∈ pendIn l1 m.op) ∧ ∀ m', .sent n m' ∈ l → m'.code ≠ .abort := by
    intro l r n m h hm
    obtain ⟨c, h1, -, -⟩ := local_called (e := .sent n m) (follows hr n) h
    obtain ⟨id, hid, hlk, hno⟩ := h1.1 hm
    obtain ⟨l1, l2, hl⟩ := List.append_of_mem (mem_trace hlk)
    refine ⟨id, l1, l2, hid, hl, ?_, fun m' hm' => hno m' (List.mem_filter.2 ⟨hm', by simp [Ev.cid]⟩)⟩
    exact ((events_ok hr).all l1 (.looked n m.op id true) (l2 ++ .sent n m :: r) (by rw [h, hl]; simp [Ev.cid])).1 rfl
  obtain ⟨id, l1, l2, hid, hl, ⟨tg, hp⟩, hno⟩ := key h hm
  refine ⟨id, l1, l2, hid, hl, ⟨tg, hp⟩, fun n' m' hs' hm' hid' => ?_⟩
  obtain ⟨r1, r2, rfl⟩ := List.append_of_mem hs'
  obtain ⟨id', q1, q2, hi, hq, ⟨tg', hp'⟩, hno'⟩ := key (l := l ++ .sent n m :: r1) (r := r2) (n := n') (m := m') (by rw [h]; simp) hm'
  rw [hid'] at hi; cases hi
  obtain ⟨k, hk⟩ := mem_pendIn hp
  obtain ⟨k', hk'⟩ := mem_pendIn hp'
  have e1 : s.log = l1 ++ .looked n m.op id true :: (l2 ++ .sent n m :: (r1 ++ .sent n' m' :: r2)) := by rw [h, hl]; simp
  have e2 : s.log = q1 ++ .looked n' m'.op id true :: (q2 ++ .sent n' m' :: r2) := by
    rw [h, show l ++ .sent n m :: (r1 ++ .sent n' m' :: r2) = (l ++ .sent n m :: r1) ++ .sent n' m' :: r2 by simp, hq]; simp
  rcases places (e1.symm.trans e2) with ⟨-, e', -⟩ | ⟨c, k1, k2⟩ | ⟨c, k1, k2⟩
  · simp only [Ev.looked.injEq] at e'
    exact hno' m (by rw [e'.1]; simp) hm
  · exact ended_not_looked (events_ok hr) e1 (e := .looked n m.op id true) (id := id) ⟨rfl, rfl⟩ ⟨k, _, _, hk⟩ (n := n') (op := m'.op) (by rw [k2]; simp)
  · exact ended_not_looked (events_ok hr) e2 (e := .looked n' m'.op id true) (id := id) ⟨rfl, rfl⟩ ⟨k', _, _, hk'⟩ (n := n) (op := m.op) (by rw [k2]; simp)

/-- `abortRequest` with a valid id, from its search for the request: it finds the request iff that is pending; iff so it sends an abort with the id of the request, once, and returns the result of the transport. -/
theorem abort_iff_pending {as : List Act} {s : State} (hr : run init as = some s) {n : Cid} {op : Op} {id : Id} {x : Res} (hop : op ≠ 0)
    (hc : .called n (.abort op (some id)) ∈ s.log) (hx : .returned n x ∈ s.log) :
    ∃ l r b, s.log = l ++ .looked n op id b :: r ∧ (b = true ↔ ∃ tg, (id, tg) ∈ pendIn l op) ∧
      sendsOf n s.log = (if b then [⟨.abort, op, some id, none⟩] else []) ∧
      (b = true → ∃ st, x = ⟨none, none, some st⟩ ∧ .sentBack n st ∈ r) := by
  have hf := returned_complete hr hc hx
  have hxt : .returned n x ∈ trace n s.log := List.mem_filter.2 ⟨hx, by simp [Ev.cid]⟩
  have key : ∃ b, .looked n op id b ∈ trace n s.log ∧ (trace n s.log).filterMap (fun | .sent _ m => some m | _ => none) = (if b then [⟨.abort, op, some id, none⟩] else []) ∧
      (b = true → ∃ st, x = ⟨none, none, some st⟩ ∧ trace n s.log = [.called n (.abort op (some id)), .looked n op id true, .sent n ⟨.abort, op, some id, none⟩, .sentBack n st, .returned n x]) := by
    generalize trace n s.log = t at hf hxt
    cases hf with
    | abortInvalid h => simp [hop] at h
    | abortNone => exact ⟨false, by simp, rfl, by simp⟩
    | abort => simp at hxt; exact ⟨true, by simp, rfl, fun _ => ⟨_, hxt, by rw [hxt]⟩⟩
  obtain ⟨b, h1, h2, h3⟩ := key
  obtain ⟨l, r, hl⟩ := List.append_of_mem (mem_trace h1)
  refine ⟨l, r, b, hl, (events_ok hr).all _ _ _ hl, by rw [sendsOf_trace]; exact h2, fun hb => ?_⟩
  obtain ⟨st, rfl, ht⟩ := h3 hb
  refine ⟨st, rfl, ?_⟩
  have hin : Ev.sentBack n st ∈ s.log := mem_trace (n := n) (by rw [ht]; simp)
  rw [hl] at hin
  rcases List.mem_append.1 hin with k | k
  · exfalso
    have hk : Ev.sentBack n st ∈ trace n l := List.mem_filter.2 ⟨k, by simp [Ev.cid]⟩
    rw [hl, trace_append] at ht
    cases hl' : trace n l with
    | nil => rw [hl'] at hk; cases hk
    | cons y ys =>
      rw [hl'] at ht hk
      have hh : trace n (Ev.looked n op id b :: r) = .looked n op id b :: trace n r := by simp [trace, Ev.cid]
      rw [hh] at ht
      simp only [List.cons_append, List.cons.injEq] at ht
      cases ys with
      | nil => rw [ht.1] at hk; simp at hk
      | cons z zs =>
        simp only [List.cons_append, List.cons.injEq] at ht
        have := congrArg (List.filterMap (fun | Ev.looked .. => some () | _ => none)) ht.2.2
        simp [List.filterMap_append] at this
  · simpa using k

/-- After an abort has found and removed the request, no response is matched to the request. -/
theorem abort_no_answer {as : List Act} {s : State} (hr : run init as = some s) {l r : List Ev} {n n' : Cid} {op : Op} {id : Id} {m : Msg} {tg : Target}
    (h : s.log = l ++ .looked n op id true :: r) (h' : .taken n' m (some tg) ∈ r) : m.id ≠ some id := by
  obtain ⟨tg, hp⟩ := ((events_ok hr).all _ _ _ h).1 rfl
  obtain ⟨k, hk⟩ := mem_pendIn hp
  exact ended_not_taken (events_ok hr) h (e := .looked n op id true) (id := id) ⟨rfl, rfl⟩ ⟨k, _, _, hk⟩ h'

/-- The full claim is that after an abort the callback is not called for the request. Proved: so it is when no delivery of a response for the request is under way when the abort removes the
request. (`answered_after_abort`: a delivery that has found the request calls the callback after the abort.) -/
theorem abort_no_callback_partial {as : List Act} {s : State} (hr : run init as = some s) {l r : List Ev} {n n' : Cid} {op : Op} {id : Id} {m : Msg} {f : Fn} {p : Option Val}
    (h : s.log = l ++ .looked n op id true :: r) (hq : ∀ k m, .called k (.incoming m true) ∈ l → m.id = some id → ∃ x, .returned k x ∈ l)
    (hc : .called n' (.incoming m true) ∈ s.log) (ha : isAnswer m.code = true) (hid : m.id = some id) : .ran n' f p ∉ r := by
  obtain ⟨tg, hp⟩ := ((events_ok hr).all _ _ _ h).1 rfl
  obtain ⟨k, hk⟩ := mem_pendIn hp
  exact ended_no_callback hr h ⟨rfl, rfl⟩ ⟨k, _, _, hk⟩ hq hc ha hid

/-- C35 does not hold in general: the response has been matched when the request is aborted — the request is not pending then, so no abort is sent for a final response, but after a partial update
the abort finds the request and sends; in both cases the callback is called after the abort has returned. -/
theorem answered_after_abort : ∃ s, run init (requested ++ [.call (.incoming (msg .partialUpdate 0 10) true), .step 2, .step 2, .call (.abort 1 (some 0)), .step 3, .step 3, .step 3, .back 3 .success,
    .step 2]) = some s ∧ s.log.drop 10 = [.taken 2 (msg .partialUpdate 0 10) (some (.user (some 5))), .called 3 (.abort 1 (some 0)), .looked 3 1 0 true, .sent 3 ⟨.abort, 1, some 0, none⟩,
      .sentBack 3 .success, .returned 3 ⟨none, none, some .success⟩, .ran 2 5 (some 10)] :=
  ⟨_, rfl, rfl⟩

/-- The hypotheses are met: an abort of a pending request, and an abort of one that is not pending any more. -/
example : ∃ s, run init (requested ++ [.call (.abort 1 (some 0)), .step 2, .step 2, .step 2, .back 2 .success, .call (.incoming (msg .request 0 10) true), .step 3, .step 3, .call (.abort 1 (some 0)),
    .step 4, .step 4]) = some s ∧ s.log.drop 9 = [.called 2 (.abort 1 (some 0)), .looked 2 1 0 true, .sent 2 ⟨.abort, 1, some 0, none⟩, .sentBack 2 .success, .returned 2 ⟨none, none, some .success⟩,
      .called 3 (.incoming (msg .request 0 10) true), .taken 3 (msg .request 0 10) none, .returned 3 ⟨none, none, none⟩, .called 4 (.abort 1 (some 0)), .looked 4 1 0 false,
      .returned 4 ⟨none, none, none⟩] :=
  ⟨_, rfl, rfl⟩

/-! ### C42: what is dropped when the service is lost -/

/-- When the availability changes to unavailable, the requests, and then the registrations, are dropped before the call returns. -/
theorem loss_clears {as : List Act} {s : State} (hr : run init as = some s) {n : Cid} {x : Res} (hc : .called n (.status .unavailable) ∈ s.log) (hx : .returned n x ∈ s.log)
    (hs : .statusStored n .unavailable ∈ s.log) : trace n s.log = [.called n (.status .unavailable), .statusStored n .unavailable, .reqsCleared n, .regsCleared n, .returned n ⟨none, none, none⟩] := by
  have hf := returned_complete hr hc hx
  have hst : .statusStored n .unavailable ∈ trace n s.log := List.mem_filter.2 ⟨hs, by simp [Ev.cid]⟩
  generalize trace n s.log = t at hf hst
  cases hf with
  | same => simp at hst
  | changed h => exact absurd rfl h
  | lost => rfl

/-- The availability is stored iff it is another than before. -/
theorem status_changes {as : List Act} {s : State} (hr : run init as = some s) {l r : List Ev} {n : Cid} {a : Avail} (h : s.log = l ++ .statusStored n a :: r) : a ≠ statusIn l :=
  (events_ok hr).all _ _ _ h

/-- Requests that are dropped get no response any more. -/
theorem lost_requests {as : List Act} {s : State} (hr : run init as = some s) {l r : List Ev} {n n' k : Cid} {op : Op} {id : Id} {m : Msg} {tg tg' : Target}
    (h : s.log = l ++ .reqsCleared n :: r) (hs : .stored k op id tg ∈ l) (h' : .taken n' m (some tg') ∈ r) : m.id ≠ some id :=
  ended_not_taken (events_ok hr) h (e := .reqsCleared n) (id := id) trivial ⟨k, op, tg, hs⟩ h'

/-- A registration that is not there stays so, unless it is made. -/
theorem mem_regsIn_later {a b : List Ev} {op : Op} {x : Id × Fn} (h : x ∈ regsIn (a ++ b) op) : x ∈ regsIn a op ∨ ∃ n f c, .registered n op x.1 f c ∈ b := by
  rw [regsIn_append] at h
  generalize regsIn a op = acc at h
  induction b generalizing acc with
  | nil => exact .inl h
  | cons e b ih =>
    rcases ih _ h with k | ⟨n, f, c, k⟩
    · rcases mem_regStep k with q | ⟨n, f, c, rfl⟩
      · exact .inl q
      · exact .inr ⟨n, f, c, by simp⟩
    · exact .inr ⟨n, f, c, by simp [k]⟩

/-- The callbacks an update finds after the registrations were dropped were registered since. -/
theorem lost_registrations {as : List Act} {s : State} (hr : run init as = some s) {l r r2 : List Ev} {n n' : Cid} {op : Op} {fs : List Fn}
    (h : s.log = l ++ .regsCleared n :: (r ++ .collected n' op fs :: r2)) : ∀ f ∈ fs, ∃ k id c, .registered k op id f c ∈ r := by
  have := (events_ok hr).all (l ++ .regsCleared n :: r) (.collected n' op fs) r2 (by rw [h]; simp)
  intro f hf
  rw [show fs = _ from this] at hf
  obtain ⟨⟨id, f'⟩, hx, rfl⟩ := List.mem_map.1 hf
  rw [show l ++ .regsCleared n :: r = (l ++ [.regsCleared n]) ++ r by simp, regsIn_append, regsIn_append] at hx
  simp only [List.foldl_cons, List.foldl_nil, regStep] at hx
  have key : ∀ (r : List Ev) (acc : List (Id × Fn)), (id, f') ∈ r.foldl (regStep op) acc → (id, f') ∈ acc ∨ ∃ k id c, .registered k op id f' c ∈ r := by
    intro r
    induction r with
    | nil => exact fun acc h => .inl h
    | cons e r ih =>
      intro acc hx
      rcases ih _ hx with k | ⟨n, i, c, k⟩
      · by_cases he : ∃ n c, e = .registered n op id f' c
        · obtain ⟨n, c, rfl⟩ := he; exact .inr ⟨n, id, c, by simp⟩
        · left
          cases e <;> simp only [regStep] at k <;> try exact k
          · split at k
            · next e =>
              subst e
              rcases List.mem_append.1 k with k | k
              · exact k
              · simp at k; exact absurd ⟨_, _, by rw [k.1, k.2]⟩ he
            · exact k
          all_goals first
            | (split at k
               · exact (List.mem_filter.1 k).1
               · exact k)
            | (split at k
               · cases k
               · exact k)
            | cases k
      · exact .inr ⟨n, i, c, by simp [k]⟩
  rcases key _ _ hx with k | k
  · cases k
  · exact k

/-- The full claim is that after the loss of the service the callbacks of the requests that were pending are not called for them. Proved: so it is for requests for which no delivery of a
response is under way when the requests are dropped. (`callback_after_loss`.) -/
theorem lost_no_callback_partial {as : List Act} {s : State} (hr : run init as = some s) {l r : List Ev} {n n' k : Cid} {op : Op} {id : Id} {m : Msg} {f : Fn} {p : Option Val} {tg : Target}
    (h : s.log = l ++ .reqsCleared n :: r) (hs : .stored k op id tg ∈ l) (hq : ∀ k m, .called k (.incoming m true) ∈ l → m.id = some id → ∃ x, .returned k x ∈ l)
    (hc : .called n' (.incoming m true) ∈ s.log) (ha : isAnswer m.code = true) (hid : m.id = some id) : .ran n' f p ∉ r :=
  ended_no_callback hr h trivial ⟨k, op, tg, hs⟩ hq hc ha hid

/-- A callback called after the loss of the service: the response was matched before. -/
theorem callback_after_loss : ∃ s, run init (requested ++ [.call (.incoming (msg .request 0 10) true), .step 2, .step 2, .call (.status .unavailable), .step 3, .step 3, .step 3, .step 2]) = some s ∧
    s.log.drop 10 = [.taken 2 (msg .request 0 10) (some (.user (some 5))), .called 3 (.status .unavailable), .statusStored 3 .unavailable, .reqsCleared 3, .regsCleared 3,
      .returned 3 ⟨none, none, none⟩, .ran 2 5 (some 10)] :=
  ⟨_, rfl, rfl⟩

/-- A request that survives the loss of the service: the availability was checked before, the request is stored after everything was dropped. -/
theorem request_survives_loss : ∃ s, run init [.call (.status .available), .step 0, .call (.request 1 (some 7) (some 5)), .step 1, .call (.status .unavailable), .step 2, .step 2, .step 2, .step 1] =
    some s ∧ statusIn s.log = .unavailable ∧ (∃ x, .returned 2 x ∈ s.log) ∧ pendIn s.log 1 = [(0, .user (some 5))] := by
  refine ⟨_, rfl, rfl, ⟨⟨none, none, none⟩, ?_⟩, rfl⟩
  decide

/-- The hypotheses are met: a request and a registration are dropped; a response and an update find nothing; a registration made later is found. -/
example : ∃ s, run init (requested ++ [.call (.register false 2 (some 6)), .step 2, .step 2, .step 2, .back 2 .success, .call (.status .unavailable), .step 3, .step 3, .step 3,
    .call (.incoming (msg .request 0 10) true), .step 4, .step 4, .call (.incoming ⟨.statusRegister, 2, none, some 8⟩ true), .step 5, .step 5, .step 5]) = some s ∧
    .taken 4 (msg .request 0 10) none ∈ s.log ∧ .collected 5 2 [] ∈ s.log ∧ ransIn s.log = [] := by
  refine ⟨_, rfl, ?_, ?_, rfl⟩ <;> decide

/-! ### C45: synchronous requests -/

/-- What a synchronous request that has id `id` may return. -/
def SyncResult (log : List Ev) (n : Cid) (op : Op) (id : Id) (timed : Bool) (x : Res) : Prop :=
  -- the send failed
  (∃ st, st ≠ .success ∧ .sentBack n st ∈ log ∧ x = ⟨none, none, some st⟩ ∧ ∀ op tg, (id, tg) ∉ pendIn log op) ∨
  (.sentBack n .success ∈ log ∧
    -- the operation id is the invalid one
    ((op = 0 ∧ x = ⟨none, none, some .success⟩) ∨
    -- the payload of a response for the request
    (∃ m k, .called k (.incoming m true) ∈ log ∧ .taken k m (some .sync) ∈ log ∧ isAnswer m.code = true ∧ m.op = op ∧ m.id = some id ∧ x = ⟨none, m.payload, some .success⟩) ∨
    -- the request was dropped with the service, or aborted, and no response came before the call was told so
    (x = ⟨none, none, some .actionBroken⟩ ∧ (∀ op tg, (id, tg) ∉ pendIn log op) ∧ ((∃ k, .reqsCleared k ∈ log) ∨ ∃ k, .looked k op id true ∈ log) ∧
      ∃ l r, log = l ++ .broken n id :: r ∧ ∀ k m tg, .taken k m (some tg) ∈ l → m.id ≠ some id) ∨
    -- the time is over
    (timed = true ∧ x = ⟨none, none, some .timeout⟩ ∧ (∀ op tg, (id, tg) ∉ pendIn log op) ∧ ∃ l r, log = l ++ .expired n id :: r ∧ Unset l id)))

/-- What `sendRequest` and `getStatus` (`code` is `request` or `statusGet`) return once they have sent something. -/
theorem sync_exchange {as : List Act} {s : State} (hr : run init as = some s) {n : Cid} {x : Res} {code : Code} {op : Op} {p : Option Val} {t : Bool} {pre tr : List Ev}
    (ht : trace n s.log = pre ++ tr) (hpre : ∀ op id, .dropped n op id ∉ pre) (hx : Exchange n code op p .sync (.sync t) tr) (hret : .returned n x ∈ tr) :
    ∃ id, .stored n op id .sync ∈ s.log ∧ .sent n ⟨code, op, some id, p⟩ ∈ s.log ∧ SyncResult s.log n op id t x := by
  have hin : ∀ e ∈ tr, e ∈ s.log := fun e he => mem_trace (n := n) (by rw [ht]; simp [he])
  have hev := events_ok hr
  have hloc : ∀ e ∈ tr, ∃ l r, s.log = l ++ e :: r := fun e he => List.append_of_mem (hin e he)
  -- what is not pending once, after it was stored, is never again
  have hgone : ∀ {id l r k o tg}, s.log = l ++ r → .stored k o id tg ∈ l → (∀ op tg, (id, tg) ∉ pendIn l op) → ∀ op tg, (id, tg) ∉ pendIn s.log op := by
    intro id l r k o tg hl hst hp
    rw [hl]
    exact not_pend_later hp (not_stored_later hev hl hst)
  have hgone1 : ∀ {id l r e k}, s.log = l ++ e :: r → .stored k op id .sync ∈ l → (∀ tg, (id, tg) ∉ pendStep op (pendIn l op) e) → ∀ op tg, (id, tg) ∉ pendIn s.log op := by
    intro id l r e k hl hst hp
    refine hgone (l := l ++ [e]) (r := r) (by rw [hl]; simp) (List.mem_append_left _ hst) fun o tg hm => ?_
    obtain ⟨k', hk'⟩ := mem_pendIn hm
    have hk'' : Ev.stored k' o id tg ∈ s.log := by rw [hl, show l ++ e :: r = (l ++ [e]) ++ r by simp]; exact List.mem_append_left _ hk'
    obtain ⟨-, rfl, -⟩ := stored_once' hev (show Ev.stored k op id .sync ∈ s.log by rw [hl]; exact List.mem_append_left _ hst) hk''
    rw [pendIn_append] at hm
    exact hp tg hm
  cases hx with
  | @failed _ id st _ hst =>
    simp at hret; subst hret
    refine ⟨id, hin _ (by simp), hin _ (by simp), .inl ⟨st, hst, hin _ (by simp), rfl, ?_⟩⟩
    obtain ⟨l, r, hl⟩ := hloc (.dropped n op id) (by simp)
    obtain ⟨c, w, -, -⟩ := local_called (e := .dropped n op id) (follows hr n) hl
    obtain ⟨tg, st', hst', -, -⟩ := w
    have hst' := mem_trace hst'
    obtain ⟨-, -, rfl⟩ := stored_once' hev (hin (.stored n op id .sync) (by simp)) (show Ev.stored n op id tg ∈ s.log by rw [hl]; exact List.mem_append_left _ hst')
    exact hgone1 hl hst' fun tg hm => by simp [pendStep] at hm
  | invalid hop => simp at hret; subst hret; exact ⟨_, hin _ (.head _), hin _ (.tail _ (.head _)), .inr ⟨hin _ (by simp), .inl ⟨hop, rfl⟩⟩⟩
  | @got _ id q hop =>
    simp at hret; subst hret
    refine ⟨id, hin _ (by simp), hin _ (by simp), .inr ⟨hin _ (by simp), .inr (.inl ?_)⟩⟩
    obtain ⟨l, r, hl⟩ := hloc (.got n id q) (by simp)
    obtain ⟨k, hk⟩ := hev.all _ _ _ hl
    obtain ⟨a, b, hab⟩ := List.append_of_mem hk
    obtain ⟨c, w1, w2, -⟩ := local_called (e := .promised k id q) (follows hr k) (l := a) (r := b ++ .got n id q :: r) (by rw [hl, hab]; simp)
    obtain ⟨m, rfl, ha, hid, rfl, htr⟩ := w1
    simp only [List.mem_append, List.mem_singleton, reduceCtorEq, or_false, Ev.cid] at w2 htr
    have htk : .taken k m (some .sync) ∈ a := mem_trace (n := k) (by rw [htr]; simp)
    have hlog : ∀ e ∈ a, e ∈ s.log := fun e he => by rw [hl, hab]; simp [he]
    refine ⟨m, k, hlog _ w2, hlog _ htk, ha, ?_, hid, rfl⟩
    obtain ⟨id', k', hid', hst'⟩ := taken_stored hev (hlog _ htk)
    rw [hid] at hid'; cases hid'
    exact (stored_once' hev hst' (hin (.stored n op id .sync) (by simp))).2.1
  | @broken _ id hop =>
    simp at hret; subst hret
    have hst := hin (.stored n op id .sync) (by simp)
    refine ⟨id, hst, hin _ (by simp), .inr ⟨hin _ (by simp), .inr (.inr (.inl ⟨rfl, ?_⟩))⟩⟩
    obtain ⟨l, r, hl⟩ := hloc (.broken n id) (by simp)
    obtain ⟨-, hp, htk⟩ := hev.all _ _ _ hl
    obtain ⟨c, ⟨o, tg, w⟩, -, -⟩ := local_called (e := .broken n id) (follows hr n) hl
    have w := mem_trace w
    obtain ⟨-, rfl, rfl⟩ := stored_once' hev hst (show Ev.stored n o id tg ∈ s.log by rw [hl]; exact List.mem_append_left _ w)
    refine ⟨hgone hl w hp, ?_, l, r, hl, htk⟩
    obtain ⟨a, e, b, hab, -, h1, h2⟩ := removal w (hp op .sync)
    have hlog : ∀ e ∈ l, e ∈ s.log := fun e he => by rw [hl]; simp [he]
    have he : e ∈ l := by rw [hab]; simp
    rcases removal_cases hev (show s.log = a ++ e :: (b ++ .broken n id :: r) by rw [hl, hab]; simp) h1 h2 with ⟨k, rfl⟩ | ⟨k, rfl⟩ | ⟨k, m, rfl, -, hid, -⟩ | ⟨k, rfl⟩
    · -- only the call itself drops its request
      exfalso
      obtain ⟨a', b', hab'⟩ := List.append_of_mem (hlog _ he)
      obtain ⟨c, ⟨tg, st, w1, -, -⟩, -, -⟩ := local_called (e := .dropped k op id) (follows hr k) hab'
      obtain ⟨rfl, -, -⟩ := stored_once' hev hst (show Ev.stored k op id tg ∈ s.log by rw [hab']; exact List.mem_append_left _ (mem_trace w1))
      have : Ev.dropped n op id ∈ trace n s.log := List.mem_filter.2 ⟨hlog _ he, by simp [Ev.cid]⟩
      rw [ht] at this
      simp [hpre] at this
    · exact .inr ⟨k, hlog _ he⟩
    · exact absurd hid (htk k m _ he)
    · exact .inl ⟨k, hlog _ he⟩
  | @late id hop =>
    simp at hret; subst hret
    have hst := hin (.stored n op id .sync) (by simp)
    refine ⟨id, hst, hin _ (by simp), .inr ⟨hin _ (by simp), .inr (.inr (.inr ⟨rfl, rfl, ?_, ?_⟩))⟩⟩
    · obtain ⟨l, r, hl⟩ := hloc (.looked n op id false) (by simp)
      obtain ⟨c, w, w2, -⟩ := local_called (e := .looked n op id false) (follows hr n) hl
      have hs' : ∃ tg, .stored n op id tg ∈ l := by
        rcases w with rfl | ⟨-, tg, w⟩
        · simp only [List.mem_append, List.mem_singleton, reduceCtorEq, or_false, Ev.cid] at w2
          exfalso
          obtain ⟨u, v, huv⟩ := List.append_of_mem hst
          obtain ⟨c, w, -, w3⟩ := local_called (e := .stored n op id .sync) (follows hr n) huv
          have := w3 _ (show Ev.called n (.abort op (some id)) ∈ s.log by rw [hl]; exact List.mem_append_left _ w2)
          subst this
          rcases w with ⟨_, _, w, -⟩ | ⟨_, _, w, -⟩ | ⟨_, w, -⟩ | ⟨_, w, -⟩ <;> cases w
        · exact ⟨tg, mem_trace w⟩
      obtain ⟨tg, hs'⟩ := hs'
      obtain ⟨-, -, rfl⟩ := stored_once' hev hst (show Ev.stored n op id tg ∈ s.log by rw [hl]; exact List.mem_append_left _ hs')
      exact hgone1 hl hs' fun tg hm => by simp [pendStep] at hm
    · obtain ⟨l, r, hl⟩ := hloc (.expired n id) (by simp)
      exact ⟨l, r, hl, hev.all _ _ _ hl⟩
  | @timeout id st hop =>
    simp at hret; subst hret
    have hst := hin (.stored n op id .sync) (by simp)
    refine ⟨id, hst, hin _ (by simp), .inr ⟨hin _ (by simp), .inr (.inr (.inr ⟨rfl, rfl, ?_, ?_⟩))⟩⟩
    · obtain ⟨l, r, hl⟩ := hloc (.looked n op id true) (by simp)
      obtain ⟨tg, hp⟩ := (hev.all _ _ _ hl).1 rfl
      obtain ⟨k, hk⟩ := mem_pendIn hp
      have := ended hev hl (e := .looked n op id true) (id := id) ⟨rfl, rfl⟩ ⟨k, _, _, hk⟩ r [] (by simp)
      rwa [← hl] at this
    · obtain ⟨l, r, hl⟩ := hloc (.expired n id) (by simp)
      exact ⟨l, r, hl, hev.all _ _ _ hl⟩

/-- A synchronous request returns why it was not sent, or as `SyncResult` says. The full claim is that the payload is that of the final response. Missing: a partial update may take its place
(`partial_update_returned`); it is the final one if there were no partial updates (`sync_final_partial`). -/
theorem sync_request_partial {as : List Act} {s : State} (hr : run init as = some s) {n : Cid} {op : Op} {p : Option Val} {t : Bool} {x : Res}
    (hc : .called n (.requestSync op p t) ∈ s.log) (hx : .returned n x ∈ s.log) :
    (.checked n false ∈ s.log ∧ (∀ m, .sent n m ∉ s.log) ∧ x = ⟨none, none, some .serviceUnavailable⟩) ∨
    ∃ id, .stored n op id .sync ∈ s.log ∧ .sent n ⟨.request, op, some id, p⟩ ∈ s.log ∧ SyncResult s.log n op id t x := by
  have hf := returned_complete hr hc hx
  have hxt : .returned n x ∈ trace n s.log := List.mem_filter.2 ⟨hx, by simp [Ev.cid]⟩
  generalize ht : trace n s.log = tr at hf hxt
  cases hf with
  | syncRefused =>
    left
    simp at hxt
    exact ⟨mem_trace (n := n) (by rw [ht]; simp), fun m hm => by
      have : Ev.sent n m ∈ trace n s.log := List.mem_filter.2 ⟨hm, by simp [Ev.cid]⟩
      rw [ht] at this; simp at this, hxt⟩
  | sync h => exact .inr (sync_exchange hr (pre := [_, _]) ht (by simp) h (by simpa using hxt))

/-- The final response is returned if no partial update was matched to the request. -/
theorem sync_final_partial {as : List Act} {s : State} (_hr : run init as = some s) {n : Cid} {op : Op} {id : Id} {t : Bool} {q : Option Val}
    (h : SyncResult s.log n op id t ⟨none, q, some .success⟩) (hop : op ≠ 0)
    (hno : ∀ k m tg, .taken k m (some tg) ∈ s.log → m.id = some id → m.code ≠ .partialUpdate) :
    ∃ m k, .called k (.incoming m true) ∈ s.log ∧ (m.code = .request ∨ m.code = .statusGet) ∧ m.op = op ∧ m.id = some id ∧ m.payload = q := by
  rcases h with ⟨st, hst, -, hx, -⟩ | ⟨-, ⟨h, -⟩ | ⟨m, k, hc, htk, ha, ho, hid, hx⟩ | ⟨hx, -⟩ | ⟨-, hx, -⟩⟩
  · cases hx; exact absurd rfl hst
  · exact absurd h hop
  · cases hx
    refine ⟨m, k, hc, ?_, ho, hid, rfl⟩
    have := hno k m _ htk hid
    revert ha this
    cases m.code <;> simp [isAnswer]
  · cases hx
  · cases hx

/-- `getStatus` that waits. -/
theorem sync_get_partial {as : List Act} {s : State} (hr : run init as = some s) {n : Cid} {op : Op} {t : Bool} {x : Res}
    (hc : .called n (.getSync op t) ∈ s.log) (hx : .returned n x ∈ s.log) :
    (∃ o, .readCache n op o ∈ s.log ∧ x.payload = o ∧ ((.checked n false ∈ s.log ∧ x.status = some .serviceUnavailable) ∨ (.subscribed n op true ∈ s.log ∧ x.status = some .success))) ∨
    (.checked n false ∈ s.log ∧ x = ⟨none, none, some .serviceUnavailable⟩) ∨
    ∃ id, .stored n op id .sync ∈ s.log ∧ .sent n ⟨.statusGet, op, some id, none⟩ ∈ s.log ∧ SyncResult s.log n op id t x := by
  have hf := returned_complete hr hc hx
  have hxt : .returned n x ∈ trace n s.log := List.mem_filter.2 ⟨hx, by simp [Ev.cid]⟩
  have hin : ∀ e, e ∈ trace n s.log → e ∈ s.log := fun e he => mem_trace he
  generalize ht : trace n s.log = tr at hf hxt hin
  cases hf with
  | getOff => left; simp at hxt; subst hxt; exact ⟨_, hin _ (.tail _ (.tail _ (.head _))), rfl, .inl ⟨hin _ (by simp), rfl⟩⟩
  | getSub => left; simp at hxt; subst hxt; exact ⟨_, hin _ (.tail _ (.tail _ (.tail _ (.head _)))), rfl, .inr ⟨hin _ (by simp), rfl⟩⟩
  | getLost => right; left; simp at hxt; subst hxt; exact ⟨hin _ (by simp), rfl⟩
  | get h => exact .inr (.inr (sync_exchange hr (pre := [_, _, _, _]) ht (by simp) h (by simpa using hxt)))

/-- The waiting call can return as soon as the delivery of a response has ended, or the request is neither pending nor being answered. -/
theorem waiting_goes_on {as : List Act} {s : State} (hr : run init as = some s) (hu : s.ub = false) {n : Cid} {op : Op} {id : Id} {t : Bool} (hw : s.pc n = .waiting op id t)
    (h : (∃ k m x, .taken k m (some .sync) ∈ s.log ∧ m.id = some id ∧ .returned k x ∈ s.log) ∨
      ((∀ tg, (id, tg) ∉ pendIn s.log op) ∧ ∀ k m, .called k (.incoming m true) ∈ s.log → m.id = some id → ∃ x, .returned k x ∈ s.log)) :
    ∃ s' r, step s (.step n) = some s' ∧ .returned n r ∈ s'.log := by
  have hg := good_of hr
  -- who holds the promise has not returned
  have hold : ∀ k ∈ s.holders id, ∃ m, .called k (.incoming m true) ∈ s.log ∧ m.id = some id ∧ ∀ x, .returned k x ∉ s.log := by
    intro k hk
    obtain ⟨p, hp⟩ := (hg.hold.iff k id).1 hk
    have := hg.path.path k
    rw [hp] at this
    obtain ⟨m, -, hid, -, htr⟩ := this
    refine ⟨m, mem_trace (n := k) (by rw [htr]; simp), hid, fun x hx => ?_⟩
    have : Ev.returned k x ∈ trace k s.log := List.mem_filter.2 ⟨hx, by simp [Ev.cid]⟩
    rw [htr] at this; simp at this
  unfold step
  rw [if_neg (by simp [hu])]
  simp only [hw, stepPc]
  cases hp : s.promise id with
  | some p => exact ⟨_, _, rfl, by simp [ret, go]; exact .inr rfl⟩
  | none =>
    have hgone : gone s op id = true := by
      rcases h with ⟨k, m, x, h1, h2, h3⟩ | ⟨h1, h2⟩
      · exfalso
        have hset : .promised k id m.payload ∈ s.log ∨ .threw k id ∈ s.log := by
          obtain ⟨c, hc, hf⟩ := complete (follows hr k) h3
          obtain ⟨a, b, hab⟩ := List.append_of_mem h1
          obtain ⟨c', w1, w2, w3⟩ := local_called (e := .taken k m (some .sync)) (follows hr k) hab
          obtain ⟨rfl, -, -⟩ := w1
          obtain rfl := w3 _ hc
          have ht : Ev.taken k m (some .sync) ∈ trace k s.log := List.mem_filter.2 ⟨h1, by simp [Ev.cid]⟩
          have hin : ∀ e, e ∈ trace k s.log → e ∈ s.log := fun e he => mem_trace he
          generalize trace k s.log = tr at hf ht hin
          cases hf with
          | promised _ hid => rw [h2] at hid; cases hid; exact .inl (hin _ (by simp))
          | threw _ hid => rw [h2] at hid; cases hid; exact .inr (hin _ (by simp))
          | update => simp at ht; try (split at ht <;> simp at ht)
          | _ => simp at ht
        have hun := (promise_none hg.abs).1 hp
        rcases hset with q | q
        · exact hun k _ q
        · obtain ⟨a, b, hab⟩ := List.append_of_mem q
          refine (hg.hist.all _ _ _ hab) fun n' p' hm => hun n' p' ?_
          rw [hab]; exact List.mem_append_left _ hm
      · simp only [gone, Bool.and_eq_true, Bool.not_eq_true', List.any_eq_false, beq_iff_eq]
        constructor
        · rintro ⟨i, tg⟩ hx rfl
          rw [hg.abs.reqs] at hx
          exact h1 tg hx
        · cases hh : s.holders id with
          | nil => rfl
          | cons k ks =>
            obtain ⟨m, w1, w2, w3⟩ := hold k (by rw [hh]; simp)
            obtain ⟨x, hx⟩ := h2 k m w1 w2
            exact absurd hx (w3 x)
    rw [hgone]
    exact ⟨_, _, rfl, by simp [ret, go]; exact .inr rfl⟩

/-- A synchronous request of operation 1 (its id is 0) that is waiting. -/
def waiting : List Act := [.call (.status .available), .step 0, .call (.requestSync 1 (some 7) true), .step 1, .step 1, .step 1, .back 1 .success]

/-- C45 does not hold in general: a partial update is returned as the response, and the delivery of the final response then fails with an exception. -/
theorem partial_update_returned : ∃ s, run init (waiting ++ [.call (.incoming (msg .partialUpdate 0 10) true), .step 2, .step 2, .step 2, .step 1,
    .call (.incoming (msg .request 0 20) true), .step 3, .step 3, .step 3]) = some s ∧ .returned 1 ⟨none, some 10, some .success⟩ ∈ s.log ∧ .threw 3 0 ∈ s.log := by
  refine ⟨_, rfl, ?_, ?_⟩ <;> decide

/-- The cases of `SyncResult` occur: a response, the loss of the service, the timeout, a failing send. -/
example : (∃ s, run init (waiting ++ [.call (.incoming (msg .request 0 20) true), .step 2, .step 2, .step 2, .step 1]) = some s ∧ .returned 1 ⟨none, some 20, some .success⟩ ∈ s.log) ∧
    (∃ s, run init (waiting ++ [.call (.status .unavailable), .step 2, .step 2, .step 2, .step 1]) = some s ∧ .returned 1 ⟨none, none, some .actionBroken⟩ ∈ s.log) ∧
    (∃ s, run init (waiting ++ [.expire 1, .step 1, .step 1, .back 1 .success]) = some s ∧ .returned 1 ⟨none, none, some .timeout⟩ ∈ s.log) ∧
    (∃ s, run init (waiting.dropLast ++ [.back 1 (.failed 3), .step 1]) = some s ∧ .returned 1 ⟨none, none, some (.failed 3)⟩ ∈ s.log) := by
  refine ⟨⟨_, rfl, ?_⟩, ⟨_, rfl, ?_⟩, ⟨_, rfl, ?_⟩, ⟨_, rfl, ?_⟩⟩ <;> decide

/-! ### C40: subscribers see the latest status -/

/-- The callbacks call `n` has called. -/
def ransOf (n : Cid) (l : List Ev) : List (Fn × Option Val) := l.filterMap fun | .ran k f p => if k = n then some (f, p) else none | _ => none

theorem ransOf_trace {n : Cid} (log : List Ev) : ransOf n log = (trace n log).filterMap (fun | .ran _ f p => some (f, p) | _ => none) := by
  unfold ransOf
  induction log with
  | nil => rfl
  | cons e log ih =>
    rw [List.filterMap_cons]
    by_cases he : e.cid = n
    · have : trace n (e :: log) = e :: trace n log := by simp [trace, he]
      rw [this, List.filterMap_cons, ih]
      cases e <;> simp_all [Ev.cid]
    · have : trace n (e :: log) = trace n log := by simp [trace, he]
      rw [this, ih]
      cases e <;> simp_all [Ev.cid]

/-- The delivery of an update calls every callback that is registered for the operation at one moment of the delivery, once and in the order of registration, with the payload of the update;
a status is cached then. -/
theorem update_calls_all {as : List Act} {s : State} (hr : run init as = some s) {n : Cid} {m : Msg} {x : Res} (hc : .called n (.incoming m true) ∈ s.log) (hu : isUpdate m.code = true)
    (hx : .returned n x ∈ s.log) :
    ∃ l r, s.log = l ++ .collected n m.op ((regsIn l m.op).map (·.2)) :: r ∧ ransOf n s.log = (regsIn l m.op).map (fun y => (y.2, m.payload)) ∧
      (m.code = .statusRegister → regsIn l m.op ≠ [] → .cached n m.op m.payload ∈ r) := by
  have hf := returned_complete hr hc hx
  have hna : isAnswer m.code = false := by revert hu; cases m.code <;> simp [isAnswer, isUpdate]
  have key : ∃ fs, .collected n m.op fs ∈ trace n s.log ∧ (trace n s.log).filterMap (fun | .ran _ f p => some (f, p) | _ => none) = fs.map (fun f => (f, m.payload)) ∧
      (m.code = .statusRegister → fs ≠ [] → .cached n m.op m.payload ∈ trace n s.log) := by
    generalize trace n s.log = t at hf
    cases hf with
    | @update _ fs h =>
      refine ⟨fs, by simp, ?_, fun h1 h2 => by simp [h1, h2]⟩
      simp only [List.cons_append, List.filterMap_cons, List.filterMap_append, List.filterMap_map, List.filterMap_nil, List.append_nil]
      have : (List.filterMap (fun | Ev.ran _ f p => some (f, p) | _ => none) (if m.code = .statusRegister ∧ fs ≠ [] then [Ev.cached n m.op m.payload] else [])) = [] := by split <;> rfl
      rw [this, List.append_nil]
      clear this
      revert fs
      intro fs
      induction fs with
      | nil => rfl
      | cons f fs ih => simp only [List.filterMap_cons, Function.comp, List.map_cons]; rw [← ih]
    | ignored h => simp [hu] at h
    | unmatched h => rw [h] at hna; cases hna
    | noCallback h => rw [h] at hna; cases hna
    | answered h => rw [h] at hna; cases hna
    | promised h => rw [h] at hna; cases hna
    | threw h => rw [h] at hna; cases hna
  obtain ⟨fs, h1, h2, h3⟩ := key
  obtain ⟨l, r, hl⟩ := List.append_of_mem (mem_trace h1)
  have hfs := (events_ok hr).all _ _ _ hl
  simp only [EvOk] at hfs
  subst hfs
  refine ⟨l, r, hl, by rw [ransOf_trace, h2]; simp, fun hm hne => ?_⟩
  have hin := mem_trace (h3 hm (by simpa using hne))
  rw [hl] at hin
  rcases List.mem_append.1 hin with k | k
  · exfalso
    obtain ⟨c, w, -, -⟩ := local_called (e := .collected n m.op _) (follows hr n) hl
    obtain ⟨m', -, -, -, w⟩ := w
    have : Ev.cached n m.op m.payload ∈ trace n l := List.mem_filter.2 ⟨k, by simp [Ev.cid]⟩
    simp only [Ev.cid] at w
    rw [w] at this; simp at this
  · simpa using k

/-- A further subscriber of a status gets the cached value, if there is one, before its registration returns. -/
theorem late_subscriber_cached {as : List Act} {s : State} (hr : run init as = some s) {n : Cid} {op : Op} {f : Fn} {id : Id} {x : Res} (hc : .called n (.register false op (some f)) ∈ s.log)
    (hx : .returned n x ∈ s.log) (hs : .registered n op id f false ∈ s.log) :
    ∃ l r o, s.log = l ++ .readCache n op o :: r ∧ .registered n op id f false ∈ l ∧ ransOf n s.log = (match o with | some v => [(f, some v)] | none => []) ∧
      x = ⟨some (op, id), none, some .success⟩ ∧ ((cacheIn l op = none ∧ o = none) ∨ ∃ v, cacheIn l op = some (some v) ∧ o = some v) := by
  have hf := returned_complete hr hc hx
  have hst : .registered n op id f false ∈ trace n s.log := List.mem_filter.2 ⟨hs, by simp [Ev.cid]⟩
  have hxt : .returned n x ∈ trace n s.log := List.mem_filter.2 ⟨hx, by simp [Ev.cid]⟩
  have key : ∃ o rest, trace n s.log = .called n (.register false op (some f)) :: .checked n true :: .registered n op id f false :: .readCache n op o :: rest ∧ (∀ o', .readCache n op o' ∉ rest) ∧
      (trace n s.log).filterMap (fun | .ran _ f p => some (f, p) | _ => none) = (match o with | some v => [(f, some v)] | none => []) ∧ x = ⟨some (op, id), none, some .success⟩ := by
    generalize trace n s.log = t at hf hst hxt
    cases hf with
    | regLate => simp at hst hxt; subst hst; subst hxt; exact ⟨_, _, rfl, by simp, rfl, rfl⟩
    | regLateNone => simp at hst hxt; subst hst; subst hxt; exact ⟨_, _, rfl, by simp, rfl, rfl⟩
    | _ => simp at hst
  obtain ⟨o, rest, ht, hno, h2, rfl⟩ := key
  obtain ⟨l, r, hl⟩ := List.append_of_mem (mem_trace (n := n) (l := s.log) (e := .readCache n op o) (by rw [ht]; simp))
  refine ⟨l, r, o, hl, ?_, by rw [ransOf_trace, h2], rfl, (events_ok hr).all _ _ _ hl⟩
  have : trace n l ++ .readCache n op o :: trace n r = [.called n (.register false op (some f)), .checked n true, .registered n op id f false] ++ .readCache n op o :: rest := by
    have h0 : trace n (Ev.readCache n op o :: r) = .readCache n op o :: trace n r := by simp [trace, Ev.cid]
    rw [← h0, ← trace_append, ← hl, ht]; simp
  rcases places this with ⟨k, -, -⟩ | ⟨c, k, -⟩ | ⟨c, -, k⟩
  · exact mem_trace (n := n) (by rw [k]; simp)
  · have : Ev.readCache n op o ∈ [Ev.called n (.register false op (some f)), .checked n true, .registered n op id f false] := by rw [k]; simp
    simp at this
  · exact absurd (by rw [k]; simp) (hno o)

theorem cacheFold {op : Op} {p : Option Val} (l : List Ev) (h1 : ∀ j q, .cached j op q ∈ l → q = p) (h2 : ∀ j, .uncached j op ∉ l) : l.foldl (cacheStep op) (some p) = some p := by
  induction l with
  | nil => rfl
  | cons e l ih =>
    rw [List.foldl_cons]
    have : cacheStep op (some p) e = some p := by
      cases e <;> simp only [cacheStep] <;> try rfl
      · split
        · next e => subst e; rw [h1 _ _ (List.mem_cons_self ..)]
        · rfl
      · split
        · next e => subst e; exact absurd (List.mem_cons_self ..) (h2 _)
        · rfl
    rw [this]
    exact ih (fun j q hm => h1 j q (by simp [hm])) fun j hm => h2 j (by simp [hm])

/-- The full claim is that a late subscriber, and `getStatus` while subscribed, get the value most recently received. Proved: so it is if that delivery has ended and did not overlap with another one for
the same operation, callbacks were registered all the time since it began, and no unregistration has dropped the cached value since.
(`late_subscriber_stale`: a registration from within a callback; `stale_after_loss`: a value from before the loss of the service.) -/
theorem cache_is_latest_partial {as : List Act} {s : State} (hr : run init as = some s) {l mid r : List Ev} {n k : Cid} {m : Msg} {o : Option Val}
    (h : s.log = l ++ .called n (.incoming m true) :: (mid ++ .readCache k m.op o :: r)) (hcode : m.code = .statusRegister)
    (hone : ∀ j m', .called j (.incoming m' true) ∈ l → m'.code = .statusRegister → m'.op = m.op → ∃ x, .returned j x ∈ l)
    (hlast : ∀ j m', .called j (.incoming m' true) ∈ mid → m'.code = .statusRegister → m'.op ≠ m.op)
    (hdone : ∃ x, .returned n x ∈ mid) (hsub : ∀ a b, mid = a ++ b → regsIn (l ++ .called n (.incoming m true) :: a) m.op ≠ []) (hun : ∀ j, .uncached j m.op ∉ mid) : o = m.payload := by
  obtain ⟨x, hx⟩ := hdone
  have hc : Ev.called n (.incoming m true) ∈ s.log := by rw [h]; simp
  have hev := events_ok hr
  have hfo := follows hr n
  -- everything of the delivery is in `mid`
  have hpre : trace n l = [] := by
    obtain ⟨c, w, -, -⟩ := local_called (e := .called n (.incoming m true)) hfo h
    exact w.2
  have hmid : ∀ e, e ∈ s.log → e.cid = n → e ≠ .called n (.incoming m true) → e ∈ mid := by
    intro e he hcid hne
    have hs : s.log = (l ++ .called n (.incoming m true) :: mid) ++ .readCache k m.op o :: r := by rw [h]; simp
    rw [hs] at he
    rcases List.mem_append.1 he with he | he
    · rcases List.mem_append.1 he with he | he
      · have : e ∈ trace n l := List.mem_filter.2 ⟨he, by simp [hcid]⟩
        rw [hpre] at this; cases this
      · rcases List.mem_cons.1 he with he | he
        · exact absurd he hne
        · exact he
    · rw [hs] at hfo
      exact absurd hcid (complete_silent hfo (x := x) (by simp [hx]) e he)
  have hxs : Ev.returned n x ∈ s.log := by rw [h]; simp [hx]
  obtain ⟨a, b, hab, -, hca⟩ := update_calls_all hr hc (by simp [isUpdate, hcode]) hxs
  -- the collection is in `mid`, so there are callbacks
  have hcol := hmid (.collected n m.op ((regsIn a m.op).map (·.2))) (by rw [hab]; simp) rfl (by simp)
  obtain ⟨u, v, huv⟩ := List.append_of_mem hcol
  have hne : regsIn a m.op ≠ [] := by
    have := hev.all (l ++ .called n (.incoming m true) :: u) (.collected n m.op ((regsIn a m.op).map (·.2))) (v ++ .readCache k m.op o :: r) (by rw [h, huv]; simp)
    simp only [EvOk] at this
    intro h0
    rw [h0] at this
    exact hsub u _ huv (List.map_eq_nil_iff.1 this.symm)
  have hcm := hmid (.cached n m.op m.payload) (by rw [hab]; simp [hca hcode hne]) rfl (by simp)
  obtain ⟨y, z, hyz⟩ := List.append_of_mem hcm
  -- nothing else was cached since
  have hcache : cacheIn (l ++ .called n (.incoming m true) :: mid) m.op = some m.payload := by
    rw [show l ++ .called n (.incoming m true) :: mid = (l ++ .called n (.incoming m true) :: (y ++ [.cached n m.op m.payload])) ++ z by rw [hyz]; simp, cacheIn_append]
    have : cacheIn (l ++ .called n (.incoming m true) :: (y ++ [.cached n m.op m.payload])) m.op = some m.payload := by
      rw [show l ++ .called n (.incoming m true) :: (y ++ [.cached n m.op m.payload]) = (l ++ .called n (.incoming m true) :: y) ++ [.cached n m.op m.payload] by simp, cacheIn_append]
      simp [cacheStep]
    rw [this]
    refine cacheFold z (fun j q hm => ?_) fun j hm => hun j (by rw [hyz]; simp [hm])
    obtain ⟨z1, z2, hz⟩ := List.append_of_mem hm
    have hlog : s.log = (l ++ .called n (.incoming m true) :: (y ++ .cached n m.op m.payload :: z1)) ++ .cached j m.op q :: (z2 ++ .readCache k m.op o :: r) := by rw [h, hyz, hz]; simp
    obtain ⟨c, w, w2, -⟩ := local_called (e := .cached j m.op q) (follows hr j) hlog
    obtain ⟨m', fs, rfl, hcode', hop, hq, -⟩ := w
    simp only [List.mem_append, List.mem_singleton, reduceCtorEq, or_false, Ev.cid] at w2
    rcases w2 with w2 | w2
    · obtain ⟨x', hx'⟩ := hone j m' w2 hcode' hop.symm
      exfalso
      have hfj := follows hr j
      rw [h] at hfj
      exact complete_silent hfj hx' (.cached j m.op q) (by rw [hyz, hz]; simp) rfl
    · rcases List.mem_cons.1 w2 with w2 | w2
      · cases w2; exact hq
      · refine absurd hop.symm (hlast j m' ?_ hcode')
        rw [hyz, hz]
        rcases List.mem_append.1 w2 with w2 | w2
        · exact List.mem_append_left _ w2
        · simp at w2; simp [w2]
  have := hev.all (l ++ .called n (.incoming m true) :: mid) (.readCache k m.op o) r (by rw [h]; simp)
  simp only [EvOk, hcache] at this
  rcases this with ⟨h0, -⟩ | ⟨v, h1, h2⟩
  · cases h0
  · rw [h2]; simpa using h1.symm

/-- A status update of operation 2. -/
def upd2 (v : Option Val) : Msg := ⟨.statusRegister, 2, none, v⟩

/-- Callback 6 is registered for status 2 (the registration has id 0) and gets 8. -/
def subscribed : List Act := [.call (.status .available), .step 0, .call (.register false 2 (some 6)), .step 1, .step 1, .step 1, .back 1 .success,
  .call (.incoming (upd2 (some 8)) true), .step 2, .step 2, .step 2, .back 2 .success, .step 2, .step 2]

/-- C40 does not hold in general: callback 7 is registered while callback 6 is called with 9. It gets 8, and not 9. -/
theorem late_subscriber_stale : ∃ s, run init (subscribed ++ [.call (.incoming (upd2 (some 9)) true), .step 3, .step 3, .step 3, .call (.register false 2 (some 7)), .step 4, .step 4, .step 4, .step 4,
    .back 4 .success, .back 3 .success, .step 3, .step 3]) = some s ∧ ransIn s.log = [(2, 6, some 8), (3, 6, some 9), (4, 7, some 8)] ∧ (∃ x, .returned 3 x ∈ s.log) ∧ (∃ x, .returned 4 x ∈ s.log) := by
  refine ⟨_, rfl, rfl, ⟨⟨none, none, none⟩, ?_⟩, ⟨⟨some (2, 1), none, some .success⟩, ?_⟩⟩ <;> decide

/-- The cached value survives the loss of the service: `getStatus` returns it to the next subscriber. -/
theorem stale_after_loss : ∃ s, run init (subscribed ++ [.call (.status .unavailable), .step 3, .step 3, .step 3, .call (.status .available), .step 4, .call (.register false 2 (some 6)), .step 5, .step 5, .step 5,
    .back 5 .success, .call (.getSync 2 false), .step 6, .step 6, .step 6]) = some s ∧ .returned 6 ⟨none, some 8, some .success⟩ ∈ s.log := by
  refine ⟨_, rfl, ?_⟩; decide

/-- A null status (the property was removed) is cached; the next `getStatus`, or the next registration, follows a null pointer. -/
theorem null_status_undefined : ∃ s, run init (subscribed ++ [.call (.incoming (upd2 none) true), .step 3, .step 3, .step 3, .back 3 .success, .step 3, .step 3, .call (.getSync 2 false), .step 4, .step 4,
    .step 4]) = some s ∧ s.ub = true :=
  ⟨_, rfl, rfl⟩

/-- The hypotheses of the theorems above are met: a second subscriber gets the value, and both get the next one. -/
example : ∃ s, run init (subscribed ++ [.call (.register false 2 (some 7)), .step 3, .step 3, .step 3, .step 3, .back 3 .success, .call (.incoming (upd2 (some 9)) true), .step 4, .step 4, .step 4,
    .back 4 .success, .step 4, .back 4 .success, .step 4, .step 4, .call (.getSync 2 false), .step 5, .step 5, .step 5]) = some s ∧
    ransIn s.log = [(2, 6, some 8), (3, 7, some 8), (4, 6, some 9), (4, 7, some 9)] ∧ .returned 5 ⟨none, some 9, some .success⟩ ∈ s.log ∧ .registered 3 2 1 7 false ∈ s.log := by
  refine ⟨_, rfl, rfl, ?_, ?_⟩ <;> decide

/-! ### C41: the server has the client registered iff the client has callbacks -/

/-- Does the call concern the registrations for `op`? -/
def touches (op : Op) : Call → Bool
  | .register _ o _ | .unregister o _ | .unregisterAll o => o == op
  | _ => false

def askStep (op : Op) (b : Bool) : Ev → Bool
  | .sent _ m => if m.op = op then (match m.code with | .statusRegister | .signalRegister => true | .unregister => false | _ => b) else b
  | _ => b

/-- What the server was asked last for `op`: to register the client, or not to. -/
def askedIn (l : List Ev) (op : Op) : Bool := l.foldl (askStep op) false

/-- A registration asks the server iff there is no callback yet for the operation. -/
theorem register_asks {as : List Act} {s : State} (hr : run init as = some s) {n : Cid} {g : Bool} {op : Op} {f : Fn} {x : Res} (hc : .called n (.register g op (some f)) ∈ s.log)
    (hx : .returned n x ∈ s.log) :
    (.checked n false ∈ s.log ∧ sendsOf n s.log = []) ∨
    ∃ l r id b, s.log = l ++ .registered n op id f b :: r ∧ (b = true ↔ regsIn l op = []) ∧ sendsOf n s.log = (if b then [⟨regCode g, op, some id, none⟩] else []) := by
  have hf := returned_complete hr hc hx
  have hin : ∀ e, e ∈ trace n s.log → e ∈ s.log := fun e he => mem_trace he
  rw [sendsOf_trace]
  have key : (.checked n false ∈ trace n s.log ∧ (trace n s.log).filterMap (fun | .sent _ m => some m | _ => none) = []) ∨
      ∃ id b, .registered n op id f b ∈ trace n s.log ∧ (trace n s.log).filterMap (fun | .sent _ m => some m | _ => none) = (if b then [⟨regCode g, op, some id, none⟩] else []) := by
    generalize trace n s.log = t at hf
    cases hf with
    | regRefused => exact .inl ⟨by simp, rfl⟩
    | regFirst => exact .inr ⟨_, true, .tail _ (.tail _ (.head _)), rfl⟩
    | regFailed => exact .inr ⟨_, true, .tail _ (.tail _ (.head _)), rfl⟩
    | _ => exact .inr ⟨_, false, .tail _ (.tail _ (.head _)), rfl⟩
  rcases key with ⟨h1, h2⟩ | ⟨id, b, h1, h2⟩
  · exact .inl ⟨hin _ h1, h2⟩
  · obtain ⟨l, r, hl⟩ := List.append_of_mem (hin _ h1)
    exact .inr ⟨l, r, id, b, hl, ((events_ok hr).all _ _ _ hl).2, h2⟩

/-- An unregistration asks the server iff no callback is left for the operation, and the service is available. -/
theorem unregister_asks {as : List Act} {s : State} (hr : run init as = some s) {n : Cid} {op : Op} {id : Id} {x : Res} (hop : op ≠ 0) (hc : .called n (.unregister op (some id)) ∈ s.log)
    (hx : .returned n x ∈ s.log) :
    ∃ l r, s.log = l ++ .unregistered n op id ((regsIn l op).filter (·.1 != id)).length :: r ∧
      sendsOf n s.log = (if (regsIn l op).filter (·.1 != id) = [] ∧ .checked n true ∈ s.log then [⟨.unregister, op, none, none⟩] else []) := by
  have hf := returned_complete hr hc hx
  have hin : ∀ e, e ∈ trace n s.log → e ∈ s.log := fun e he => mem_trace he
  have hmem : ∀ b, .checked n b ∈ s.log ↔ .checked n b ∈ trace n s.log := fun b => ⟨fun h => List.mem_filter.2 ⟨h, by simp [Ev.cid]⟩, hin _⟩
  rw [sendsOf_trace]
  have key : ∃ k, .unregistered n op id k ∈ trace n s.log ∧ (trace n s.log).filterMap (fun | .sent _ m => some m | _ => none) =
      (if k = 0 ∧ .checked n true ∈ trace n s.log then [⟨.unregister, op, none, none⟩] else []) := by
    generalize trace n s.log = t at hf
    cases hf with
    | unregInvalid h => simp [hop] at h
    | unregMore _ hk => exact ⟨_, .tail _ (.head _), by simp [hk]⟩
    | unregOff => exact ⟨0, by simp, by simp⟩
    | unregLast => exact ⟨0, by simp, by simp⟩
  obtain ⟨k, h1, h2⟩ := key
  obtain ⟨l, r, hl⟩ := List.append_of_mem (hin _ h1)
  have hk := (events_ok hr).all _ _ _ hl
  simp only [EvOk] at hk
  subst hk
  refine ⟨l, r, hl, ?_⟩
  rw [h2]
  simp only [List.length_eq_zero_iff, hmem]

theorem fold_trace {β : Type} {n : Cid} (f : β → Ev → β) (xs : List Ev) (h : ∀ e ∈ xs, e.cid ≠ n → ∀ acc, f acc e = acc) (acc : β) : xs.foldl f acc = (trace n xs).foldl f acc := by
  induction xs generalizing acc with
  | nil => rfl
  | cons e xs ih =>
    have ih := fun acc => ih (fun e he => h e (by simp [he])) acc
    by_cases he : e.cid = n
    · have : trace n (e :: xs) = e :: trace n xs := by simp [trace, he]
      rw [this, List.foldl_cons, List.foldl_cons, ih]
    · have : trace n (e :: xs) = trace n xs := by simp [trace, he]
      rw [this, List.foldl_cons, h e (by simp) he, ih]

/-- Only calls that concern the registrations for `op` change them, or ask the server about them. -/
theorem touching {l : List Ev} {op : Op} (hfo : ∀ n, Follows n l) (hcl : ∀ n, .regsCleared n ∉ l) {e : Ev} (he : e ∈ l) (hno : ∀ c, .called e.cid c ∈ l → touches op c = false) :
    (∀ acc, regStep op acc e = acc) ∧ ∀ acc, askStep op acc e = acc := by
  obtain ⟨a, b, hab⟩ := List.append_of_mem he
  obtain ⟨c, w, w2, -⟩ := local_called (hfo e.cid) hab
  have hin : Ev.called e.cid c ∈ l := by
    rw [hab, show a ++ e :: b = (a ++ [e]) ++ b by simp]
    exact List.mem_append_left _ w2
  have ht := hno c hin
  cases e with
  | registered n o i f g =>
    obtain ⟨g, rfl⟩ := w
    have : o ≠ op := by simpa [touches] using ht
    simp [regStep, askStep, this]
  | unregistered n o i k =>
    have : o ≠ op := by rcases w with rfl | ⟨g, f, rfl⟩ <;> simpa [touches] using ht
    simp [regStep, askStep, this]
  | erased n o =>
    obtain rfl := w
    have : o ≠ op := by simpa [touches] using ht
    simp [regStep, askStep, this]
  | regsCleared n => exact absurd he (hcl n)
  | sent n m =>
    refine ⟨fun _ => rfl, fun acc => ?_⟩
    simp only [askStep]
    split
    · next e =>
      subst e
      obtain ⟨-, w2, w3⟩ := w
      cases hm : m.code with
      | statusRegister => obtain ⟨g, f, id, rfl, -⟩ := w2 _ (.inl hm) rfl; simp [touches] at ht
      | signalRegister => obtain ⟨g, f, id, rfl, -⟩ := w2 _ (.inr hm) rfl; simp [touches] at ht
      | unregister => rcases w3 hm with ⟨id, rfl, -⟩ | ⟨rfl, -⟩ <;> simp [touches] at ht
      | _ => rfl
    · rfl
  | _ => exact ⟨fun _ => rfl, fun _ => rfl⟩

/-- All calls that concern the registrations for `op` have returned. -/
def Quiet (l : List Ev) (op : Op) : Prop := ∀ n c, .called n c ∈ l → touches op c = true → ∃ x, .returned n x ∈ l

/-- They do not overlap. -/
def OneByOne (l : List Ev) (op : Op) : Prop := ∀ a b n c, l = a ++ .called n c :: b → touches op c = true → Quiet a op

theorem mirror_aux {op : Op} (N : Nat) : ∀ l : List Ev, l.length ≤ N → Hist EvOk l → (∀ n, Follows n l) → (∀ n, .regsCleared n ∉ l) → (∀ n, .checked n false ∉ l) →
    (∀ n st, .sentBack n st ∈ l → st = .success) → OneByOne l op → Quiet l op → (askedIn l op = true ↔ regsIn l op ≠ []) := by
  induction N with
  | zero =>
    intro l hN
    obtain rfl : l = [] := List.length_eq_zero_iff.1 (Nat.le_zero.1 hN)
    simp [askedIn, regsIn]
  | succ N ih =>
    intro l hN hev hfo hcl hck hsb hone hq
    -- the last call that concerns the registrations
    have hlast : (∀ n c, .called n c ∈ l → touches op c = false) ∨ ∃ a n c b, l = a ++ .called n c :: b ∧ touches op c = true ∧ ∀ n' c', .called n' c' ∈ b → touches op c' = false := by
      clear ih hN hev hfo hcl hck hsb hone hq
      induction l with
      | nil => left; simp
      | cons e l ih =>
        rcases ih with h | ⟨a, n, c, b, rfl, h1, h2⟩
        · by_cases he : ∃ n c, e = .called n c ∧ touches op c = true
          · obtain ⟨n, c, rfl, ht⟩ := he
            exact .inr ⟨[], n, c, l, rfl, ht, h⟩
          · left
            intro n c hm
            rcases List.mem_cons.1 hm with k | k
            · cases ht : touches op c with
              | false => rfl
              | true => exact absurd ⟨n, c, k.symm, ht⟩ he
            · exact h n c k
        · exact .inr ⟨e :: a, n, c, b, rfl, h1, h2⟩
    rcases hlast with h | ⟨a, n, c, b, hl, htc, hb⟩
    · have h1 : ∀ e ∈ l, (∀ acc, regStep op acc e = acc) ∧ ∀ acc, askStep op acc e = acc := fun e he => touching hfo hcl he fun c hc => h _ c hc
      have fold : ∀ {β : Type} (f : β → Ev → β) (xs : List Ev) (acc : β), (∀ e ∈ xs, ∀ acc, f acc e = acc) → xs.foldl f acc = acc := by
        intro β f xs
        induction xs with
        | nil => intros; rfl
        | cons e xs ih => intro acc h; rw [List.foldl_cons, h e (by simp)]; exact ih acc fun e he => h e (by simp [he])
      have e1 : regsIn l op = [] := fold _ l _ fun e he => (h1 e he).1
      have e2 : askedIn l op = false := fold _ l _ fun e he => (h1 e he).2
      simp [e1, e2]
    · have hqa := hone a b n c hl htc
      have hsub : ∀ e ∈ a, e ∈ l := fun e he => by rw [hl]; simp [he]
      have hia := ih a (by rw [hl] at hN; simp at hN; omega) ⟨fun x e y hx => hev.all x e (y ++ .called n c :: b) (by rw [hl, hx]; simp)⟩
        (fun k => by have := hfo k; rw [hl] at this; exact this.pre) (fun k hk => hcl k (hsub _ hk)) (fun k hk => hck k (hsub _ hk)) (fun k st hk => hsb k st (hsub _ hk))
        (fun x y k c' hx ht => hone x (y ++ .called n c :: b) k c' (by rw [hl, hx]; simp) ht) hqa
      have hcin : Ev.called n c ∈ l := by rw [hl]; simp
      -- other calls do nothing to them in the meantime
      have hothers : ∀ e ∈ .called n c :: b, e.cid ≠ n → (∀ acc, regStep op acc e = acc) ∧ ∀ acc, askStep op acc e = acc := by
        intro e he hne
        refine touching hfo hcl (by rw [hl]; exact List.mem_append_right _ he) fun c' hc' => ?_
        cases ht : touches op c' with
        | false => rfl
        | true =>
          exfalso
          rw [hl] at hc'
          rcases List.mem_append.1 hc' with k | k
          · obtain ⟨x, hx⟩ := hqa _ _ k ht
            have := hfo e.cid
            rw [hl] at this
            exact complete_silent this hx e he rfl
          · rcases List.mem_cons.1 k with k | k
            · simp only [Ev.called.injEq] at k; exact hne k.1
            · rw [hb _ _ k] at ht; cases ht
      have htr0 : trace n a = [] := by
        obtain ⟨c', w, -, -⟩ := local_called (e := .called n c) (hfo n) hl
        exact w.2
      have htr : trace n (.called n c :: b) = trace n l := by rw [hl, trace_append, htr0, List.nil_append]
      obtain ⟨x, hx⟩ := hq n c hcin htc
      obtain ⟨c', hc', hf⟩ := complete (hfo n) hx
      obtain rfl := called_one (hfo n) hcin hc'
      have er : regsIn l op = (trace n l).foldl (regStep op) (regsIn a op) := by
        conv => lhs; rw [hl]
        rw [regsIn_append, fold_trace (n := n) _ _ (fun e he hne => (hothers e he hne).1), htr]
      have ea : askedIn l op = (trace n l).foldl (askStep op) (askedIn a op) := by
        conv => lhs; rw [hl]
        rw [askedIn, List.foldl_append, ← askedIn, fold_trace (n := n) _ _ (fun e he hne => (hothers e he hne).2), htr]
      -- the rule of an event of the call
      have hrule : ∀ u e v, trace n l = u ++ e :: v → (∀ k, e ∈ u → k) → (∀ k, e ∈ v → k) → ∃ p, EvOk p e ∧ regsIn p op = u.foldl (regStep op) (regsIn a op) := by
        intro u e v huv hu hv
        have hein : e ∈ .called n c :: b := by
          have : e ∈ trace n (.called n c :: b) := by rw [htr, huv]; simp
          exact mem_trace this
        have hcid : e.cid = n := by
          have : e ∈ trace n l := by rw [huv]; simp
          simpa using (List.mem_filter.1 this).2
        obtain ⟨y, z, hyz⟩ := List.append_of_mem hein
        refine ⟨a ++ y, hev.all _ _ z (by rw [hl, hyz]; simp), ?_⟩
        have hy : trace n y = u := by
          have h0 := htr
          have h1 : trace n (e :: z) = e :: trace n z := by simp [trace, hcid]
          rw [hyz, trace_append, h1, huv] at h0
          rcases places h0 with ⟨k, -, -⟩ | ⟨c, k, -⟩ | ⟨c, -, k⟩
          · exact k
          · exact hu _ (by rw [k]; simp)
          · exact hv _ (by rw [k]; simp)
        rw [regsIn_append, fold_trace (n := n) _ y (fun e' he' hne => (hothers e' (by rw [hyz]; simp [he']) hne).1), hy]
      rw [er, ea]
      have hck' : ∀ b, Ev.checked n b ∈ trace n l → b = true := fun b hm => by
        cases b
        · exact absurd (mem_trace hm) (hck n)
        · rfl
      have hsb' : ∀ st, Ev.sentBack n st ∈ trace n l → st = .success := fun st hm => hsb n st (mem_trace hm)
      generalize trace n l = t at hf hrule hck' hsb'
      cases hf with
      | regRefused => have := hck' false (by simp); cases this
      | allRefused => have := hck' false (by simp); cases this
      | unregOff => have := hck' false (by simp); cases this
      | regFailed hst => have := hsb' _ (.tail _ (.tail _ (.tail _ (.tail _ (.head _))))); exact absurd this hst
      | regEmpty => simpa [regStep, askStep] using hia
      | unregInvalid => simpa [regStep, askStep] using hia
      | @regFirst g o f id =>
        have : o = op := by simpa [touches] using htc
        subst this
        cases g <;> simp [regStep, askStep, regCode]
      | @regLate o f id v =>
        have : o = op := by simpa [touches] using htc
        subst this
        obtain ⟨p, ⟨-, h1⟩, h2⟩ := hrule [.called n _, .checked n true] (.registered n o id f false) _ rfl (by simp) (by simp)
        simp [regStep] at h2
        rw [h2] at h1
        simp at h1
        simp [regStep, askStep, hia, h1]
      | @regLateNone o f id =>
        have : o = op := by simpa [touches] using htc
        subst this
        obtain ⟨p, ⟨-, h1⟩, h2⟩ := hrule [.called n _, .checked n true] (.registered n o id f false) _ rfl (by simp) (by simp)
        simp [regStep] at h2
        rw [h2] at h1
        simp at h1
        simp [regStep, askStep, hia, h1]
      | @regSignal o f id =>
        have : o = op := by simpa [touches] using htc
        subst this
        obtain ⟨p, ⟨-, h1⟩, h2⟩ := hrule [.called n _, .checked n true] (.registered n o id f false) _ rfl (by simp) (by simp)
        simp [regStep] at h2
        rw [h2] at h1
        simp at h1
        simp [regStep, askStep, hia, h1]
      | @unregMore o id k hop hk =>
        have : o = op := by simpa [touches] using htc
        subst this
        obtain ⟨p, h1, h2⟩ := hrule [.called n _] (.unregistered n o id k) _ rfl (by simp) (by simp)
        simp only [EvOk] at h1
        simp [regStep] at h2
        rw [h2] at h1
        have h3 : (regsIn a o).filter (·.1 != id) ≠ [] := by intro h0; rw [h0] at h1; exact hk h1
        have h4 : regsIn a o ≠ [] := by intro h0; rw [h0] at h3; exact h3 rfl
        simp only [List.foldl_cons, List.foldl_nil, regStep, askStep, if_true]
        exact ⟨fun _ => h3, fun _ => hia.2 h4⟩
      | @unregLast o id st hop =>
        have : o = op := by simpa [touches] using htc
        subst this
        obtain ⟨p, h1, h2⟩ := hrule [.called n _] (.unregistered n o id 0) _ rfl (by simp) (by simp)
        simp only [EvOk] at h1
        simp [regStep] at h2
        rw [h2] at h1
        have h3 : (regsIn a o).filter (·.1 != id) = [] := List.length_eq_zero_iff.1 h1.symm
        simp only [List.foldl_cons, List.foldl_nil, regStep, askStep, if_true, h3]
        simp
      | @all o st =>
        have : o = op := by simpa [touches] using htc
        subst this
        simp [regStep, askStep]
      | _ => simp [touches] at htc

/-- The full claim is that the server has the client registered for an operation iff the client has a callback for it. Proved: so it is, whenever no registration or unregistration for the operation is under way, if
these calls do not overlap, the service was available to each call that asked, nothing was dropped, and all sends succeeded.
(`registrations_cross`, `failed_register_strands`: overlapping calls.) -/
theorem mirror_partial {as : List Act} {s : State} (hr : run init as = some s) {op : Op} (hcl : ∀ n, .regsCleared n ∉ s.log) (hck : ∀ n, .checked n false ∉ s.log)
    (hsb : ∀ n st, .sentBack n st ∈ s.log → st = .success) (hone : OneByOne s.log op) (hq : Quiet s.log op) : askedIn s.log op = true ↔ regsIn s.log op ≠ [] :=
  mirror_aux s.log.length s.log (Nat.le_refl _) (events_ok hr) (follows hr) hcl hck hsb hone hq

/-- Callback 6 is registered for signal 2 (id 0). -/
def signal : List Act := [.call (.status .available), .step 0, .call (.register true 2 (some 6)), .step 1, .step 1, .step 1, .back 1 .success]

/-- C41 does not hold in general: the last callback is removed, a new one is registered and the server asked to register, and then the first call asks the server to unregister. The client has a callback, and
the server does not have the client. -/
theorem registrations_cross : ∃ s, run init (signal ++ [.call (.unregister 2 (some 0)), .step 2, .step 2, .step 2, .call (.register true 2 (some 7)), .step 3, .step 3, .step 3, .back 3 .success, .step 2, .step 2,
    .back 2 .success]) = some s ∧ regsIn s.log 2 = [(1, 7)] ∧ askedIn s.log 2 = false ∧ .returned 2 ⟨none, none, some .success⟩ ∈ s.log ∧ .returned 3 ⟨some (2, 1), none, some .success⟩ ∈ s.log := by
  refine ⟨_, rfl, rfl, rfl, ?_, ?_⟩ <;> decide

/-- Two registrations overlap; the one that asks the server fails. The other one has succeeded, but the server does not have the client. -/
theorem failed_register_strands : ∃ s, run init [.call (.status .available), .step 0, .call (.register true 2 (some 6)), .step 1, .step 1, .step 1, .call (.register true 2 (some 7)), .step 2, .step 2,
    .back 1 (.failed 3), .step 1] = some s ∧ regsIn s.log 2 = [(1, 7)] ∧ .returned 2 ⟨some (2, 1), none, none⟩ ∈ s.log ∧ .returned 1 ⟨none, none, some (.failed 3)⟩ ∈ s.log ∧
      sendsOf 2 s.log = [] ∧ .sentBack 1 .success ∉ s.log := by
  refine ⟨_, rfl, rfl, ?_, ?_, rfl, ?_⟩ <;> decide

/-- Nor does the server get asked to unregister only when the last callback is removed: unregistering a registration that is gone, or of another id, asks again. -/
theorem unregister_unknown_asks : ∃ s, run init (signal ++ [.call (.unregister 3 (some 9)), .step 2, .step 2, .step 2, .step 2, .step 2, .back 2 .success]) = some s ∧
    sendsOf 2 s.log = [⟨.unregister, 3, none, none⟩] ∧ ∀ n id f b, .registered n 3 id f b ∉ s.log := by
  refine ⟨_, rfl, rfl, fun n id f b h => ?_⟩
  simp [signal, go, ret, init] at h

/-- The hypotheses are met: two callbacks are registered, and both are unregistered. -/
example : ∃ s, run init (signal ++ [.call (.register true 2 (some 7)), .step 2, .step 2, .call (.unregister 2 (some 0)), .step 3, .step 3]) = some s ∧ askedIn s.log 2 = true ∧ regsIn s.log 2 = [(1, 7)] :=
  ⟨_, rfl, rfl, rfl⟩

end Maf.Req
