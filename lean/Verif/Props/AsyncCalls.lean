import Verif.Props.Requester
/-
C119: what the result of an asynchronous call on a service promises: `sendRequestAsync` and `getStatus` with a callback.

The theorems are about the history `s.log` after any interleaving of any calls on the requester, and any behaviour of the transport.
-/
namespace Maf.Req

/-- The events that end a pending request: it could not be sent, it is aborted, it is finally answered, or the service is lost (or the requester destroyed). -/
def Ended (l : List Ev) (op : Op) (id : Id) : Prop :=
  (∃ n, .dropped n op id ∈ l) ∨ (∃ n b, .looked n op id b ∈ l) ∨ (∃ n m tg, .taken n m tg ∈ l ∧ m.op = op ∧ m.id = some id ∧ m.code ≠ .partialUpdate) ∨ ∃ n, .reqsCleared n ∈ l

/-- A stored request is pending until one of these. -/
theorem pending_until {l : List Ev} {op : Op} {id : Id} {tg : Target} {n : Cid} (h : .stored n op id tg ∈ l) (hn : ¬ Ended l op id) : (id, tg) ∈ pendIn l op := by
  unfold Ended at hn
  induction l using snoc_induct with
  | nil => cases h
  | snoc l e ih =>
    rw [pendIn_append]
    have keep : (id, tg) ∈ pendIn l op → (id, tg) ∈ pendStep op (pendIn l op) e := by
      intro hm
      cases e with
      | dropped k o i =>
        simp only [pendStep]; split
        · next ho => subst ho; exact List.mem_filter.2 ⟨hm, by
            simp only [bne_iff_ne, ne_eq]; intro hi; subst hi; exact hn (.inl ⟨k, by simp⟩)⟩
        · exact hm
      | looked k o i b =>
        simp only [pendStep]; split
        · next ho => subst ho; exact List.mem_filter.2 ⟨hm, by
            simp only [bne_iff_ne, ne_eq]; intro hi; subst hi; exact hn (.inr (.inl ⟨k, b, by simp⟩))⟩
        · exact hm
      | taken k m g =>
        simp only [pendStep]; split
        · next ho => exact List.mem_filter.2 ⟨hm, by
            simp only [bne_iff_ne, ne_eq]; intro hi; exact hn (.inr (.inr (.inl ⟨k, m, g, by simp, ho.1, hi.symm, ho.2⟩)))⟩
        · exact hm
      | reqsCleared k => exact absurd (.inr (.inr (.inr ⟨k, by simp⟩))) hn
      | stored k o i g =>
        simp only [pendStep]; split
        · exact List.mem_append_left _ hm
        · exact hm
      | _ => exact hm
    rcases List.mem_append.1 h with h | h
    · refine keep (ih h ?_)
      rintro (⟨a, b⟩ | ⟨a, b, c⟩ | ⟨a, b, c, d, d'⟩ | ⟨a, b⟩)
      · exact hn (.inl ⟨a, by simp [b]⟩)
      · exact hn (.inr (.inl ⟨a, b, by simp [c]⟩))
      · exact hn (.inr (.inr (.inl ⟨a, b, c, by simp [d], d'⟩)))
      · exact hn (.inr (.inr (.inr ⟨a, by simp [b]⟩)))
    · simp only [List.mem_singleton] at h
      subst h
      simp [pendStep]

theorem run_append (s : State) (as bs : List Act) : run s (as ++ bs) = (run s as).bind fun s' => run s' bs := by
  induction as generalizing s with
  | nil => rfl
  | cons a as ih =>
    simp only [List.cons_append, run]
    cases step s a with
    | none => rfl
    | some t => exact ih t

theorem log_grows {s s' : State} {bs : List Act} (h : run s bs = some s') : ∃ t, s'.log = s.log ++ t := by
  induction bs generalizing s with
  | nil => cases h; exact ⟨[], by simp⟩
  | cons a bs ih =>
    simp only [run, Option.bind_eq_some_iff] at h
    obtain ⟨s1, h1, h2⟩ := h
    have : ∃ t, s1.log = s.log ++ t := by
      simp only [step] at h1
      split at h1
      · cases h1
      · cases a with
        | call c => cases h1; exact ⟨_, rfl⟩
        | step n =>
          rcases moves_step h1 with rfl | ⟨pc, es, hm⟩
          · exact ⟨[], by simp⟩
          · exact ⟨es, hm.log.1⟩
        | back n st => obtain ⟨pc, es, hm⟩ := moves_back h1; exact ⟨es, hm.log.1⟩
        | expire n =>
          simp only at h1
          split at h1
          · split at h1
            · cases h1; exact ⟨_, rfl⟩
            · cases h1
          · cases h1
    obtain ⟨t, ht⟩ := this
    obtain ⟨u, hu⟩ := ih h2
    exact ⟨t ++ u, by rw [hu, ht]; simp⟩

/-- How an asynchronous exchange ends. -/
structure Exchanged (log : List Ev) (n : Cid) (code : Code) (op : Op) (p : Option Val) (f : Option Fn) (id : Id) (st : Status) : Prop where
  /-- the callback is stored under a new id -/
  stored : .stored n op id (.user f) ∈ log
  /-- one message is given to the transport, which returns `st` -/
  sends : sendsOf n log = [⟨code, op, some id, p⟩]
  back : .sentBack n st ∈ log
  /-- the call itself calls nothing -/
  quiet : ∀ g q, .ran n g q ∉ log
  /-- if the transport failed, the request is not pending any more -/
  unsent : st ≠ .success → .dropped n op id ∈ log ∧ ∀ op tg, (id, tg) ∉ pendIn log op

/-- A request that was dropped is pending at no later time. -/
theorem dropped_later {as : List Act} {s : State} (hr : run init as = some s) {n : Cid} {op : Op} {id : Id} {l r1 r2 : List Ev} (h : s.log = l ++ .dropped n op id :: (r1 ++ r2)) :
    ∀ o tg, (id, tg) ∉ pendIn (l ++ .dropped n op id :: r1) o := by
  obtain ⟨c, w, -, -⟩ := local_called (e := .dropped n op id) (follows hr n) h
  obtain ⟨tg, st', hst', -, -⟩ := w
  have hst : Ev.stored n op id tg ∈ l := mem_trace hst'
  rw [show l ++ Ev.dropped n op id :: r1 = (l ++ [.dropped n op id]) ++ r1 by simp]
  refine not_pend_later (fun o g hm => ?_) (fun a b c hm => ?_)
  · obtain ⟨k', hk'⟩ := mem_pendIn hm
    have hk'' : Ev.stored k' o id g ∈ s.log := by rw [h, show l ++ Ev.dropped n op id :: (r1 ++ r2) = (l ++ [.dropped n op id]) ++ (r1 ++ r2) by simp]; exact List.mem_append_left _ hk'
    obtain ⟨-, rfl, -⟩ := stored_once' (events_ok hr) (show Ev.stored n op id tg ∈ s.log by rw [h]; exact List.mem_append_left _ hst) hk''
    rw [pendIn_append] at hm
    simp [pendStep] at hm
  · exact not_stored_later (events_ok hr) h hst a b c (by simp [hm])

theorem dropped_gone {as : List Act} {s : State} (hr : run init as = some s) {n : Cid} {op : Op} {id : Id} (h : .dropped n op id ∈ s.log) :
    ∀ o tg, (id, tg) ∉ pendIn s.log o := by
  obtain ⟨l, r, hl⟩ := List.append_of_mem h
  have := dropped_later hr (n := n) (op := op) (id := id) (l := l) (r1 := r) (r2 := []) (by rw [hl]; simp)
  rw [hl]; exact this

/-- `sendRequestAsync`: refused with ServiceUnavailable and nothing is done, or the request is stored and one message is sent; the call returns the request's id, which is
valid, and Success if the transport returned Success, and else an invalid id and what the transport returned, and then the request is not pending any more. -/
theorem request_result {as : List Act} {s : State} (hr : run init as = some s) {n : Cid} {op : Op} {p : Option Val} {f : Option Fn} {x : Res}
    (hc : .called n (.request op p f) ∈ s.log) (hx : .returned n x ∈ s.log) :
    (.checked n false ∈ s.log ∧ sendsOf n s.log = [] ∧ (∀ o i tg, .stored n o i tg ∉ s.log) ∧ x = ⟨none, none, some .serviceUnavailable⟩) ∨
    ∃ id st, Exchanged s.log n .request op p f id st ∧ x = (if st = .success then ⟨some (op, id), none, some .success⟩ else ⟨none, none, some st⟩) := by
  have hf := returned_complete hr hc hx
  have hxt : .returned n x ∈ trace n s.log := List.mem_filter.2 ⟨hx, by simp [Ev.cid]⟩
  have hin : ∀ e, e ∈ trace n s.log → e ∈ s.log := fun e he => mem_trace he
  have hout : ∀ e : Ev, e.cid = n → e ∈ s.log → e ∈ trace n s.log := fun e he h => List.mem_filter.2 ⟨h, by simp [he]⟩
  have hsend := sendsOf_trace (n := n) s.log
  generalize ht : trace n s.log = tr at hf hxt hin hout hsend
  cases hf with
  | reqRefused =>
    left
    simp at hxt
    refine ⟨hin _ (by simp), by rw [hsend]; rfl, fun o i tg h => ?_, hxt⟩
    have := hout _ rfl h
    simp at this
  | req h =>
    right
    cases h with
    | @failed _ id st _ hst =>
      simp at hxt
      refine ⟨id, st, ⟨hin _ (by simp), by rw [hsend]; rfl, hin _ (by simp), fun g q h => ?_, fun _ => ?_⟩, by rw [if_neg hst]; exact hxt⟩
      · have := hout _ rfl h; simp at this
      · have := hin (.dropped n op id) (by simp)
        exact ⟨this, dropped_gone hr this⟩
    | @async id =>
      simp at hxt
      refine ⟨id, .success, ⟨hin _ (by simp), by rw [hsend]; rfl, hin _ (by simp), fun g q h => ?_, fun h => absurd rfl h⟩, by rw [if_pos rfl]; exact hxt⟩
      have := hout _ rfl h; simp at this

/-- So a valid id means that the callback waits for the answer, until it has come, the request is aborted or the service is lost. -/
theorem valid_pending {as : List Act} {s : State} (hr : run init as = some s) {n : Cid} {op : Op} {p : Option Val} {f : Option Fn} {x : Res} {o : Op} {id : Id}
    (hc : .called n (.request op p f) ∈ s.log) (hx : .returned n x ∈ s.log) (hv : x.reg = some (o, id)) :
    o = op ∧ x.status = some .success ∧ .sentBack n .success ∈ s.log ∧ ((id, .user f) ∈ pendIn s.log op ∨ Ended s.log op id) := by
  rcases request_result hr hc hx with ⟨-, -, -, rfl⟩ | ⟨i, st, he, rfl⟩
  · cases hv
  · by_cases hst : st = .success
    · subst hst
      rw [if_pos rfl] at hv ⊢
      cases hv
      refine ⟨rfl, rfl, he.back, ?_⟩
      by_cases hE : Ended s.log op id
      · exact .inr hE
      · exact .inl (pending_until he.stored hE)
    · rw [if_neg hst] at hv; cases hv

/-- And an invalid one means that the callback is not called for this request: whatever answer is matched to anything was, with the id of this request, matched before the call
gave up. -/
theorem invalid_never {as : List Act} {s : State} (hr : run init as = some s) {n : Cid} {op : Op} {id : Id} {l r : List Ev} (h : s.log = l ++ .dropped n op id :: r)
    {k : Cid} {m : Msg} {tg : Target} (hm : .taken k m (some tg) ∈ r) : m.id ≠ some id := by
  obtain ⟨r1, r2, rfl⟩ := List.append_of_mem hm
  intro hid
  obtain ⟨id', hid', hp⟩ := ((events_ok hr).all (l ++ .dropped n op id :: r1) (.taken k m (some tg)) r2 (by rw [h]; simp) tg).1 rfl
  rw [hid] at hid'; cases hid'
  exact dropped_later hr h _ _ hp

/-- `getStatus` with a callback. The full claim is that it returns Success exactly if the callback was called with the value of the property, or waits for the service's answer. Proved: while
the service is unavailable, or the property is subscribed, it calls the callback once, with what is in the cache; otherwise it asks the service. Missing: it returns Success also if it could not send
its message (`get_unsent_success`). -/
theorem get_result_partial {as : List Act} {s : State} (hr : run init as = some s) {n : Cid} {op : Op} {f : Fn} {x : Res}
    (hc : .called n (.getAsync op f) ∈ s.log) (hx : .returned n x ∈ s.log) :
    (∃ o, .readCache n op o ∈ s.log ∧ ransOf n s.log = [(f, o)] ∧ sendsOf n s.log = [] ∧
      ((.checked n false ∈ s.log ∧ x = ⟨none, none, some .serviceUnavailable⟩) ∨ (.checked n true ∈ s.log ∧ .subscribed n op true ∈ s.log ∧ x = ⟨none, none, some .success⟩))) ∨
    (.checked n true ∈ s.log ∧ .subscribed n op false ∈ s.log ∧ x = ⟨none, none, some .success⟩ ∧ ∃ id st, Exchanged s.log n .statusGet op none (some f) id st) := by
  have hf := returned_complete hr hc hx
  have hxt : .returned n x ∈ trace n s.log := List.mem_filter.2 ⟨hx, by simp [Ev.cid]⟩
  have hin : ∀ e, e ∈ trace n s.log → e ∈ s.log := fun e he => mem_trace he
  have hout : ∀ e : Ev, e.cid = n → e ∈ s.log → e ∈ trace n s.log := fun e he h => List.mem_filter.2 ⟨h, by simp [he]⟩
  have hsend := sendsOf_trace (n := n) s.log
  have hrans := ransOf_trace (n := n) s.log
  generalize ht : trace n s.log = tr at hf hxt hin hout hsend hrans
  cases hf with
  | @getaOff _ _ o =>
    simp at hxt
    exact .inl ⟨o, hin _ (by simp), by rw [hrans]; rfl, by rw [hsend]; rfl, .inl ⟨hin _ (by simp), hxt⟩⟩
  | @getaSub _ _ o =>
    simp at hxt
    exact .inl ⟨o, hin _ (by simp), by rw [hrans]; rfl, by rw [hsend]; rfl, .inr ⟨hin _ (by simp), hin _ (by simp), hxt⟩⟩
  | geta h =>
    right
    cases h with
    | failed hh => exact absurd rfl hh
    | @unheard id st hst =>
      simp at hxt
      refine ⟨hin _ (by simp), hin _ (by simp), hxt, id, st, hin _ (by simp), by rw [hsend]; rfl, hin _ (by simp), fun g q h => ?_, fun _ => ?_⟩
      · have := hout _ rfl h; simp at this
      · have := hin (.dropped n op id) (by simp)
        exact ⟨this, dropped_gone hr this⟩
    | @asked id =>
      simp at hxt
      refine ⟨hin _ (by simp), hin _ (by simp), hxt, id, .success, hin _ (by simp), by rw [hsend]; rfl, hin _ (by simp), fun g q h => ?_, fun h => absurd rfl h⟩
      have := hout _ rfl h; simp at this

/-- A run: the service is available; `getStatus` for operation 1 with callback 5 is called, and the transport fails. -/
def unsent : List Act := [.call (.status .available), .step 0, .call (.getAsync 1 5), .step 1, .step 1, .step 1, .step 1, .back 1 (.failed 3), .step 1]

/-- C119 does not hold for `getStatus`: the message could not be sent, Success is returned, and the callback is never called, however the run goes on: no answer is ever matched to it. -/
theorem get_unsent_success : ∃ s, run init unsent = some s ∧ .sentBack 1 (.failed 3) ∈ s.log ∧ .returned 1 ⟨none, none, some .success⟩ ∈ s.log ∧ ransOf 1 s.log = [] ∧
    ∀ bs s', run s bs = some s' → ∀ k m tg, .taken k m (some tg) ∈ s'.log → m.id ≠ some 0 := by
  refine ⟨_, rfl, by decide +kernel, by decide +kernel, rfl, fun bs s' hb k m tg hm => ?_⟩
  have hrun : run init (unsent ++ bs) = some s' := by rw [run_append]; exact hb
  obtain ⟨t, ht⟩ := log_grows hb
  rw [ht] at hm
  refine invalid_never hrun (n := 1) (op := 1) (id := 0) (k := k) (m := m) (tg := tg) (l := [.called 0 (.status .available), .statusStored 0 .available, .returned 0 ⟨none, none, none⟩, .called 1 (.getAsync 1 5), .checked 1 true,
    .subscribed 1 1 false, .stored 1 1 0 (.user (some 5)), .sent 1 ⟨.statusGet, 1, some 0, none⟩, .sentBack 1 (.failed 3)]) (r := .returned 1 ⟨none, none, some .success⟩ :: t) (by rw [ht]; rfl) ?_
  rcases List.mem_append.1 hm with h | h
  · exfalso; revert h; simp [run, step, go, ret, begin_, stepPc, backPc, unsent, init, upd]
  · exact .tail _ h

/-- The hypotheses are met: a request that is sent and answered, one that cannot be sent, one that is refused; `getStatus` while subscribed, and one that asks the service and gets its answer. -/
example : ∃ s, run init (requested ++ [.call (.request 2 none (some 6)), .step 2, .step 2, .step 2, .back 2 (.failed 1), .step 2,
    .call (.incoming (msg .request 0 10) true), .step 3, .step 3, .step 3, .back 3 .success,
    .call (.getAsync 1 8), .step 4, .step 4, .step 4, .step 4, .back 4 .success, .call (.incoming (msg .statusGet 2 11) true), .step 5, .step 5, .step 5, .back 5 .success]) = some s ∧
    .returned 1 ⟨some (1, 0), none, some .success⟩ ∈ s.log ∧ .returned 2 ⟨none, none, some (.failed 1)⟩ ∈ s.log ∧ .returned 4 ⟨none, none, some .success⟩ ∈ s.log ∧
    ransIn s.log = [(3, 5, some 10), (5, 8, some 11)] :=
  ⟨_, rfl, by decide +kernel, by decide +kernel, by decide +kernel, rfl⟩

end Maf.Req
