import Verif.Lemmas.Provider
/-
What an operation of a call says about the call.
-/
namespace Maf.Prov
open Maf.Calls

abbrev O := Op Query Ans

/-- What is known of call `c` when it does `o` having done `pre`. -/
def LocalOk (c : Call) (pre : List O) : O → Prop
  | ⟨.send a m, _⟩ =>
    (∃ r p m0 r' b, c = .respond r p ∧ pre = [⟨.check r, .ok m0⟩, ⟨.find m0.op m0.id true, some r'⟩, ⟨.invalidate r', b⟩] ∧ a = m0.addr ∧ m = { m0 with payload := p, code := .request }) ∨
    (∃ r p m0 r', c = .update r p ∧ pre = [⟨.check r, .ok m0⟩, ⟨.find m0.op m0.id false, some r'⟩] ∧ a = m0.addr ∧ m = { m0 with payload := p, code := .partialUpdate }) ∨
    (∃ m0 o, c = .incoming m0 ∧ m0.code = .statusRegister ∧ pre = [⟨.saveReg m0.addr m0.op, ()⟩, ⟨.status m0.op, some o⟩] ∧ a = m0.addr ∧ m = { m0 with payload := .obj o }) ∨
    (∃ m0 o, c = .incoming m0 ∧ m0.code = .statusGet ∧ pre = [⟨.status m0.op, o⟩] ∧ a = m0.addr ∧ m = { m0 with payload := .of o }) ∨
    (∃ m0, c = .incoming m0 ∧ m0.code = .request ∧ pre = [⟨.handler m0.op, none⟩] ∧ a = m0.addr ∧ m = { m0 with payload := .error }) ∨
    (∃ op p as, c = .setStatus op p ∧ ⟨.setStatus op p, true⟩ ∈ pre ∧ ⟨.registered op, as⟩ ∈ pre ∧ a ∈ as ∧ m = ⟨.statusRegister, 0, op, none, .of p⟩) ∨
    (∃ op as, c = .removeProperty op true ∧ ⟨.dropStatus op, ()⟩ ∈ pre ∧ ⟨.registered op, as⟩ ∈ pre ∧ a ∈ as ∧ m = ⟨.statusRegister, 0, op, none, .null⟩) ∨
    ∃ op p as, c = .broadcastSignal op p ∧ ⟨.registered op, as⟩ ∈ pre ∧ a ∈ as ∧ m = ⟨.signalRegister, 0, op, none, .of p⟩
  | ⟨.find op id rm, _⟩ =>
    (∃ r p m0, c = .respond r p ∧ rm = true ∧ pre = [⟨.check r, .ok m0⟩] ∧ op = m0.op ∧ id = m0.id) ∨
    (∃ r p m0, c = .update r p ∧ rm = false ∧ pre = [⟨.check r, .ok m0⟩] ∧ op = m0.op ∧ id = m0.id) ∨
    ∃ m, c = .incoming m ∧ m.code = .abort ∧ rm = true ∧ pre = [] ∧ op = m.op ∧ id = m.id
  | ⟨.check r, _⟩ => pre = [] ∧ ((∃ p, c = .respond r p) ∨ ∃ p, c = .update r p)
  | ⟨.invalidate r, _⟩ =>
    (∃ r0 p m0, c = .respond r0 p ∧ pre = [⟨.check r0, .ok m0⟩, ⟨.find m0.op m0.id true, some r⟩]) ∨
    (∃ m, c = .incoming m ∧ m.code = .abort ∧ pre = [⟨.find m.op m.id true, some r⟩]) ∨
    ((c = .deinit ∨ c = .destroy) ∧ ∃ rs, ⟨.lockReqs, rs⟩ ∈ pre ∧ r ∈ rs)
  | ⟨.newReq m, _⟩ => c = .incoming m ∧ m.code = .request ∧ ∃ h, pre = [⟨.handler m.op, some h⟩]
  | ⟨.setAbort r f, _⟩ => c = .onAborted r f ∧ pre = []
  | ⟨.run (.abort f r), _⟩ =>
    (c = .onAborted r f ∧ pre = [⟨.setAbort r f, false⟩]) ∨
    (∃ m b, c = .incoming m ∧ m.code = .abort ∧ pre = [⟨.find m.op m.id true, some r⟩, ⟨.invalidate r, b⟩, ⟨.abortFn r, some f⟩]) ∨
    ((c = .deinit ∨ c = .destroy) ∧ ∃ rs, ⟨.lockReqs, rs⟩ ∈ pre ∧ r ∈ rs ∧ ⟨.abortFn r, some f⟩ ∈ pre)
  | ⟨.run (.handler h r), _⟩ => ∃ m, c = .incoming m ∧ m.code = .request ∧ pre = [⟨.handler m.op, some h⟩, ⟨.newReq m, r⟩]
  | ⟨.run (.listener f p), _⟩ => ∃ op fs, ⟨.lockListeners op, fs⟩ ∈ pre ∧ f ∈ fs ∧ ⟨.unlockListeners, ()⟩ ∉ pre ∧ ((c = .setStatus op p ∧ ⟨.setStatus op p, true⟩ ∈ pre) ∨ (c = .removeProperty op true ∧ p = none) ∨ c = .broadcastSignal op p)
  | ⟨.setStatus op p, _⟩ => c = .setStatus op p ∧ pre = []
  | ⟨.dropStatus op, _⟩ => ∃ b, c = .removeProperty op b ∧ pre = []
  | ⟨.clearStatus, _⟩ => c = .deinit ∨ c = .destroy
  | ⟨.clearRegs, _⟩ => c = .deinit ∨ c = .destroy
  | ⟨.lockReqs, _⟩ => (c = .deinit ∨ c = .destroy) ∧ ∀ rs, ⟨.lockReqs, rs⟩ ∉ pre
  | ⟨.expire, _⟩ => c = .destroy
  | ⟨.unlockReqs, _⟩ => (c = .deinit ∨ c = .destroy) ∧ ∃ rs, ⟨.lockReqs, rs⟩ ∈ pre
  | ⟨.unlockListeners, _⟩ => (∃ op fs, ⟨.lockListeners op, fs⟩ ∈ pre) ∧ ⟨.unlockListeners, ()⟩ ∉ pre
  | ⟨.lockListeners _, _⟩ => ∀ op fs, ⟨.lockListeners op, fs⟩ ∉ pre
  | ⟨.freeReq r, _⟩ => ∃ f, c = .onAborted r f ∧ pre = [⟨.setAbort r f, false⟩, ⟨.run (.abort f r), ()⟩]
  | ⟨.saveReg a op, _⟩ => ∃ m, c = .incoming m ∧ (m.code = .statusRegister ∨ m.code = .signalRegister) ∧ a = m.addr ∧ op = m.op ∧ pre = []
  | ⟨.dropReg a op, _⟩ => ∃ m, c = .incoming m ∧ m.code = .unregister ∧ a = m.addr ∧ op = m.op
  | ⟨.dropAddr a, _⟩ => (∃ m, c = .incoming m ∧ m.code = .clientOff ∧ a = m.addr) ∨ ∃ m st, ⟨.send a m, st⟩ ∈ pre ∧ st ≠ .success ∧ st ≠ .receiverBusy
  | ⟨.registered op, _⟩ => (∃ p, c = .setStatus op p ∧ ⟨.setStatus op p, true⟩ ∈ pre) ∨ (c = .removeProperty op true ∧ ⟨.dropStatus op, ()⟩ ∈ pre) ∨ ∃ p, c = .broadcastSignal op p
  | ⟨.status op, _⟩ => (∃ m, c = .incoming m ∧ m.op = op ∧ (m.code = .statusGet ∧ pre = [] ∨ m.code = .statusRegister ∧ pre = [⟨.saveReg m.addr m.op, ()⟩])) ∨ (c = .getStatus op ∧ pre = [])
  | ⟨.addHandler op h, _⟩ => c = .registerHandler op (some h)
  | ⟨.dropHandler op, _⟩ => c = .unregisterHandler op
  | ⟨.listen op f, _⟩ => c = .listen op f
  | _ => True

/-- What broadcasts. -/
def Bcast (c : Call) (op : OpId) (code : Code) (p : Option Obj) (pre : List O) : Prop :=
  (c = .setStatus op p ∧ code = .statusRegister ∧ ⟨.setStatus op p, true⟩ ∈ pre) ∨ (c = .removeProperty op true ∧ code = .statusRegister ∧ p = none ∧ ⟨.dropStatus op, ()⟩ ∈ pre) ∨
    (c = .broadcastSignal op p ∧ code = .signalRegister)

theorem Bcast.mono {c : Call} {op : OpId} {code : Code} {p : Option Obj} {pre l : List O} (h : Bcast c op code p pre) : Bcast c op code p (pre ++ l) := by
  rcases h with ⟨h1, h2, h3⟩ | ⟨h1, h2, h3, h4⟩ | h
  · exact .inl ⟨h1, h2, by simp [h3]⟩
  · exact .inr (.inl ⟨h1, h2, h3, by simp [h4]⟩)
  · exact .inr (.inr h)

theorem notifyAll_local {c : Call} {op : OpId} {code : Code} {p : Option Obj} {gs : List Fn} {fs : List Fn} {pre : List O} (hb : Bcast c op code p pre) (hl : ⟨.lockListeners op, gs⟩ ∈ pre)
    (hu : ⟨.unlockListeners, ()⟩ ∉ pre) (hf : ∀ f ∈ fs, f ∈ gs) : Along (LocalOk c) pre (notifyAll p fs) := by
  induction fs generalizing pre with
  | nil => trivial
  | cons f fs ih =>
    simp only [notifyAll, ask_bind, along_ask]
    refine fun a => ⟨⟨op, gs, hl, hf f (by simp), hu, ?_⟩, ih hb.mono (by simp [hl]) (by simp [hu]) fun g hg => hf g (by simp [hg])⟩
    rcases hb with ⟨h1, -, h3⟩ | ⟨h1, -, h3, -⟩ | ⟨h, -⟩
    · exact .inl ⟨h1, h3⟩
    · exact .inr (.inl ⟨h1, h3⟩)
    · exact .inr (.inr h)

theorem notifyAll_path {p : Option Obj} {fs : List Fn} {l : List O} {r : Unit} (h : Path (notifyAll p fs) l (.ret r)) : l = fs.map fun f => ⟨.run (.listener f p), ()⟩ := by
  induction fs generalizing l with
  | nil => exact (path_ret.1 h).1
  | cons f fs ih =>
    simp only [notifyAll, ask_bind, path_ask_ret] at h
    obtain ⟨a, l', rfl, h⟩ := h
    rw [ih h]; rfl

theorem trySend_local {c : Call} {op : OpId} {code : Code} {p : Option Obj} {as as' : List Addr} {pre : List O} (hb : Bcast c op code p pre) (hl : ⟨.registered op, as'⟩ ∈ pre)
    (ha : ∀ a ∈ as, a ∈ as') : Along (LocalOk c) pre (trySend ⟨code, 0, op, none, .of p⟩ as) := by
  induction as generalizing pre with
  | nil => trivial
  | cons a as ih =>
    have ha' : ∀ a ∈ as, a ∈ as' := fun g hg => ha g (by simp [hg])
    simp only [trySend, ask_bind, along_ask]
    intro st
    refine ⟨?_, ?_⟩
    · rcases hb with ⟨h1, rfl, h3⟩ | ⟨h1, rfl, rfl, h3⟩ | ⟨h, rfl⟩
      · exact .inr (.inr (.inr (.inr (.inr (.inl ⟨op, p, as', h1, h3, hl, ha a (by simp), rfl⟩)))))
      · exact .inr (.inr (.inr (.inr (.inr (.inr (.inl ⟨op, as', h1, h3, hl, ha a (by simp), rfl⟩))))))
      · exact .inr (.inr (.inr (.inr (.inr (.inr (.inr ⟨op, p, as', h, hl, ha a (by simp), rfl⟩))))))
    · split
      · exact ih hb.mono (by simp [hl]) ha'
      · exact (ih hb.mono (by simp [hl]) ha').bind fun l r hp => trivial
      · next h1 h2 =>
        simp only [along_ask]
        exact fun b => ⟨.inr ⟨_, st, by simp, h1, h2⟩, ih (by simpa using (hb.mono (l := [_, _]))) (by simp [hl]) ha'⟩

/-- One round of sends with their results: whoever can not be sent to is dropped. -/
def round (m : Msg) : List (Addr × Status) → List O
  | [] => []
  | (a, st) :: rs => ⟨.send a m, st⟩ :: ((if st = .success ∨ st = .receiverBusy then [] else [⟨.dropAddr a, ()⟩]) ++ round m rs)

/-- Those that were busy. -/
def busy (rs : List (Addr × Status)) : List Addr := (rs.filter (·.2 == .receiverBusy)).map (·.1)

theorem trySend_path {m : Msg} {as : List Addr} {l : List O} {bs : List Addr} (h : Path (trySend m as) l (.ret bs)) :
    ∃ rs : List (Addr × Status), rs.map (·.1) = as ∧ l = round m rs ∧ bs = busy rs := by
  induction as generalizing l bs with
  | nil =>
    simp only [trySend, path_pure] at h
    obtain ⟨rfl, h⟩ := h
    cases h
    exact ⟨[], rfl, rfl, rfl⟩
  | cons a as ih =>
    simp only [trySend, ask_bind, path_ask_ret] at h
    obtain ⟨st, l', rfl, h⟩ := h
    split at h
    · obtain ⟨rs, rfl, rfl, rfl⟩ := ih h
      exact ⟨(a, .success) :: rs, rfl, rfl, rfl⟩
    · rw [path_bind_ret] at h
      obtain ⟨l1, l2, x, rfl, h1, h2⟩ := h
      obtain ⟨rs, rfl, rfl, rfl⟩ := ih h1
      simp only [path_pure] at h2
      obtain ⟨rfl, h2⟩ := h2
      cases h2
      exact ⟨(a, .receiverBusy) :: rs, rfl, by simp [round], rfl⟩
    · next h1 h2 =>
      simp only [path_ask_ret] at h
      obtain ⟨u, l1, rfl, h⟩ := h
      obtain ⟨rs, rfl, rfl, rfl⟩ := ih h
      have e1 : ¬((st : Status) = .success ∨ (st : Status) = .receiverBusy) := fun h => h.elim h1 h2
      have e2 : ((st : Status) == .receiverBusy) = false := by cases e : ((st : Status) == Status.receiverBusy) with | false => rfl | true => exact absurd (eq_of_beq e) h2
      refine ⟨(a, st) :: rs, rfl, ?_, ?_⟩
      · simp only [round, if_neg e1]; rfl
      · simp only [busy, List.filter_cons, e2]; rfl

theorem busy_sub {rs : List (Addr × Status)} {a : Addr} (h : a ∈ busy rs) : a ∈ rs.map (·.1) := by
  obtain ⟨x, hx, rfl⟩ := List.mem_map.1 h
  exact List.mem_map.2 ⟨x, (List.mem_filter.1 hx).1, rfl⟩

theorem broadcast_local {c : Call} {op : OpId} {code : Code} {p : Option Obj} {pre : List O} (hb : Bcast c op code p pre) (hn : ∀ op fs, ⟨.lockListeners op, fs⟩ ∉ pre) (hu : ⟨.unlockListeners, ()⟩ ∉ pre) :
    Along (LocalOk c) pre (broadcast op code p) := by
  refine Along.bind ?_ fun l r hp => ?_
  · simp only [broadcastServerSide, ask_bind, along_ask]
    refine fun fs => ⟨hn, (notifyAll_local hb.mono (by simp) (by simp [hu]) fun f hf => hf).bind fun l r hp => ?_⟩
    intro a
    refine ⟨⟨⟨op, fs, by simp⟩, ?_⟩, trivial⟩
    rw [notifyAll_path hp]
    simp [hu]
  · simp only [broadcastToClients, ask_bind, along_ask]
    intro as
    refine ⟨?_, ?_⟩
    · rcases hb.mono (l := l) with ⟨h1, rfl, h3⟩ | ⟨h1, rfl, rfl, h3⟩ | ⟨h, rfl⟩
      · exact .inl ⟨p, h1, h3⟩
      · exact .inr (.inl ⟨h1, h3⟩)
      · exact .inr (.inr ⟨p, h⟩)
    · split
      · trivial
      · refine (trySend_local (as' := as) (by simpa using hb.mono (l := l ++ [_])) (by simp) fun a ha => ha).bind fun l' bs hp' => ?_
        split
        · trivial
        · refine Along.bind (trySend_local (as' := as) ?_ (by simp) fun a ha => ?_) fun _ _ _ => trivial
          · simpa using hb.mono (l := l ++ ⟨.registered op, as⟩ :: l')
          · obtain ⟨rs, rfl, -, rfl⟩ := trySend_path hp'
            exact busy_sub ha


theorem abortRequest_local {c : Call} {r : Rid} {rs : List Rid} {pre : List O} (hc : c = .deinit ∨ c = .destroy) (hl : ⟨.lockReqs, rs⟩ ∈ pre) (hr : r ∈ rs) : Along (LocalOk c) pre (abortRequest r) := by
  simp only [abortRequest, ask_bind, along_ask]
  refine fun b => ⟨.inr (.inr ⟨hc, rs, hl, hr⟩), fun o => ⟨trivial, ?_⟩⟩
  split
  · exact fun u => ⟨.inr (.inr ⟨hc, rs, by simp [hl], hr, by simp⟩), trivial⟩
  · trivial

theorem abortAll_local {c : Call} {rs rs' : List Rid} {pre : List O} (hc : c = .deinit ∨ c = .destroy) (hl : ⟨.lockReqs, rs⟩ ∈ pre) (hr : ∀ r ∈ rs', r ∈ rs) : Along (LocalOk c) pre (abortAll rs') := by
  induction rs' generalizing pre with
  | nil => trivial
  | cons r rs' ih =>
    exact (abortRequest_local hc hl (hr r (by simp))).bind fun l _ _ => ih (by simp [hl]) fun x hx => hr x (by simp [hx])

theorem deinit_local {c : Call} {pre : List O} (hc : c = .deinit ∨ c = .destroy) (hp : ∀ rs, ⟨.lockReqs, rs⟩ ∉ pre) : Along (LocalOk c) pre deinit := by
  simp only [deinit, ask_bind, along_ask]
  refine fun u => ⟨hc, fun rs => ⟨⟨hc, by simp [hp]⟩, ?_⟩⟩
  refine (abortAll_local hc (rs := rs) (by simp) fun x h => h).bind fun l _ _ => fun _ => ⟨hc, fun _ => ⟨⟨hc, rs, by simp⟩, fun _ => ⟨hc, trivial⟩⟩⟩

theorem incoming_local (m : Msg) : Along (LocalOk (.incoming m)) [] (onIncomingMessage m) := by
  unfold onIncomingMessage
  split
  · next hc =>
    simp only [updateLatestStatus, sendBack, ask_bind, along_ask, List.nil_append]
    refine fun u => ⟨⟨m, rfl, .inl hc, rfl, rfl, rfl⟩, fun o => ⟨.inl ⟨m, rfl, rfl, .inr ⟨hc, rfl⟩⟩, ?_⟩⟩
    cases o with
    | none => trivial
    | some o => exact fun st => ⟨.inr (.inr (.inl ⟨m, _, rfl, hc, rfl, rfl, rfl⟩)), trivial⟩
  · next hc => exact fun u => ⟨⟨m, rfl, .inr hc, rfl, rfl, rfl⟩, trivial⟩
  · next hc => exact fun u => ⟨⟨m, rfl, hc, rfl, rfl⟩, trivial⟩
  · next hc => exact fun u => ⟨.inl ⟨m, rfl, hc, rfl⟩, trivial⟩
  · next hc =>
    refine Along.bind ?_ fun _ _ _ => trivial
    simp only [onActionRequest, sendBack, ask_bind, along_ask, List.nil_append]
    refine fun o => ⟨trivial, ?_⟩
    split
    · exact fun r => ⟨⟨rfl, hc, _, rfl⟩, fun u => ⟨⟨m, rfl, hc, rfl⟩, trivial⟩⟩
    · exact fun st => ⟨.inr (.inr (.inr (.inr (.inl ⟨m, rfl, hc, rfl, rfl, rfl⟩)))), trivial⟩
  · next hc =>
    simp only [onStatusGetRequest, sendBack, ask_bind, along_ask, List.nil_append]
    exact fun o => ⟨.inl ⟨m, rfl, rfl, .inl ⟨hc, rfl⟩⟩, fun st => ⟨.inr (.inr (.inr (.inl ⟨m, o, rfl, hc, rfl, rfl, rfl⟩))), trivial⟩⟩
  · next hc =>
    refine Along.bind ?_ fun _ _ _ => trivial
    simp only [onRequestAborted, abortRequest, ask_bind, along_ask, List.nil_append]
    refine fun o => ⟨.inr (.inr ⟨m, rfl, hc, rfl, rfl, rfl, rfl⟩), ?_⟩
    split
    · refine fun b => ⟨.inr (.inl ⟨m, rfl, hc, rfl⟩), fun o => ⟨trivial, ?_⟩⟩
      cases o with
      | some f => exact fun u => ⟨.inr (.inl ⟨m, b, rfl, hc, rfl⟩), trivial⟩
      | none => trivial
    · trivial
  · trivial

theorem respond_local (r : Rid) (p : Payload) : Along (LocalOk (.respond r p)) [] (reply r p .request) := by
  simp only [reply, ask_bind, along_ask, List.nil_append]
  refine fun ch => ⟨⟨rfl, .inl ⟨p, rfl⟩⟩, ?_⟩
  split
  · trivial
  · trivial
  · next m0 =>
    simp only [respondToRequest, sendBack, reduceCtorEq, if_false, ask_bind, along_ask]
    refine fun o => ⟨.inl ⟨r, p, m0, rfl, rfl, rfl, rfl, rfl⟩, ?_⟩
    split
    · exact fun b => ⟨.inl ⟨r, p, m0, rfl, rfl⟩, fun st => ⟨.inl ⟨r, p, m0, _, b, rfl, rfl, rfl, rfl⟩, trivial⟩⟩
    · trivial

theorem update_local (r : Rid) (p : Payload) : Along (LocalOk (.update r p)) [] (reply r p .partialUpdate) := by
  simp only [reply, ask_bind, along_ask, List.nil_append]
  refine fun ch => ⟨⟨rfl, .inr ⟨p, rfl⟩⟩, ?_⟩
  split
  · trivial
  · trivial
  · next m0 =>
    simp only [respondToRequest, sendBack, if_true, ask_bind, along_ask]
    refine fun o => ⟨.inr (.inl ⟨r, p, m0, rfl, rfl, rfl, rfl, rfl⟩), ?_⟩
    split
    · exact fun st => ⟨.inr (.inl ⟨r, p, m0, _, rfl, rfl, rfl, rfl⟩), trivial⟩
    · trivial

theorem prog_local : ∀ c, Along (LocalOk c) [] (prog c)
  | .incoming m => incoming_local m
  | .respond r p => (respond_local r p).bind fun _ _ _ => trivial
  | .update r p => (update_local r p).bind fun _ _ _ => trivial
  | .isValid r => fun _ => ⟨trivial, trivial⟩
  | .onAborted r f => by
    refine Along.bind ?_ fun _ _ _ => trivial
    simp only [onAborted, ask_bind, along_ask, List.nil_append]
    refine fun b => ⟨⟨rfl, rfl⟩, ?_⟩
    split
    · trivial
    · next h =>
      have : b = false := by simpa using h
      subst this
      exact fun u => ⟨.inl ⟨rfl, rfl⟩, fun _ => ⟨⟨f, rfl, rfl⟩, trivial⟩⟩
  | .setStatus op p => by
    refine Along.bind ?_ fun _ _ _ => trivial
    simp only [setStatus, ask_bind, along_ask, List.nil_append]
    refine fun b => ⟨⟨rfl, rfl⟩, ?_⟩
    split
    · next h => subst h; exact broadcast_local (.inl ⟨rfl, rfl, by simp⟩) (by simp) (by simp)
    · trivial
  | .removeProperty op b => by
    refine Along.bind ?_ fun _ _ _ => trivial
    simp only [removeProperty, ask_bind, along_ask, List.nil_append]
    refine fun u => ⟨⟨b, rfl, rfl⟩, ?_⟩
    split
    · next h => subst h; exact broadcast_local (.inr (.inl ⟨rfl, rfl, rfl, by simp⟩)) (by simp) (by simp)
    · trivial
  | .broadcastSignal op p => (broadcast_local (.inr (.inr ⟨rfl, rfl⟩)) (by simp) (by simp)).bind fun _ _ _ => trivial
  | .getStatus op => fun _ => ⟨.inr ⟨rfl, rfl⟩, trivial⟩
  | .registerHandler op (some h) => fun _ => ⟨rfl, trivial⟩
  | .registerHandler op none => trivial
  | .unregisterHandler op => fun _ => ⟨rfl, trivial⟩
  | .listen op f => fun _ => ⟨rfl, trivial⟩
  | .deinit => (deinit_local (.inl rfl) (by simp)).bind fun _ _ _ => trivial
  | .destroy => fun _ => ⟨rfl, (deinit_local (.inr rfl) (by simp)).bind fun _ _ _ => trivial⟩

/-- What an operation says of the call that does it. -/
theorem local_did {as : List (Act sys)} {s : St} (hr : run (Calls.init sys) as = some s) {l r : List Event} {n : Nat} {q : Query} {a : Ans q} (h : s.log = l ++ .did n q a :: r) :
    ∃ c pre, Ev.called n c ∈ l ∧ trace (S := sys) n l = .called n c :: evs (S := sys) n pre ∧ LocalOk c pre ⟨q, a⟩ := by
  obtain ⟨c, pre, k, h1, h2, h3⟩ := did_path hr h
  exact ⟨c, pre, h1, h2, (prog_local c).at h3 a⟩

/-- What a call has done before is in the history. -/
theorem pre_mem {n : Nat} {c : Call} {l : List Event} {pre : List O} (ht : trace (S := sys) n l = .called n c :: evs (S := sys) n pre) {q : Query} {a : Ans q} (h : ⟨q, a⟩ ∈ pre) : Ev.did n q a ∈ l :=
  mem_trace (S := sys) (n := n) (by rw [ht]; exact List.mem_cons_of_mem _ (mem_evs.2 h))

theorem notifyAll_safe (p : Option Obj) (fs : List Fn) : Safe (notifyAll p fs) := by
  induction fs with
  | nil => trivial
  | cons f fs ih => exact fun _ => ih

theorem trySend_safe (m : Msg) (as : List Addr) : Safe (trySend m as) := by
  induction as with
  | nil => trivial
  | cons a as ih =>
    simp only [trySend, ask_bind]
    intro st
    dsimp only
    split
    · exact ih
    · exact ih.bind fun _ => trivial
    · exact fun _ => ih

theorem broadcast_safe (op : OpId) (code : Code) (p : Option Obj) : Safe (broadcast op code p) := by
  refine Safe.bind (fun fs => (notifyAll_safe p fs).bind fun _ _ => trivial) fun _ as => ?_
  show Safe (ite _ _ _)
  split
  · trivial
  · refine (trySend_safe _ _).bind fun bs => ?_
    split
    · trivial
    · exact (trySend_safe _ _).bind fun _ => trivial

theorem abortRequest_safe (r : Rid) : Safe (abortRequest r) := fun _ o => by
  cases o with
  | none => trivial
  | some f => exact fun _ => trivial

theorem abortAll_safe (rs : List Rid) : Safe (abortAll rs) := by
  induction rs with
  | nil => trivial
  | cons r rs ih => exact (abortRequest_safe r).bind fun _ => ih

theorem deinit_safe : Safe deinit := fun _ rs => (abortAll_safe rs).bind fun _ _ _ _ => trivial

/-- Only a response crashes: it finds no request. -/
theorem crash_path {c : Call} {l : List O} (h : Path (prog c) l .crash) : ∃ r p m0, c = .respond r p ∧ l = [⟨.check r, .ok m0⟩, ⟨.find m0.op m0.id true, none⟩] := by
  cases c with
  | incoming m =>
    refine (Safe.path h ?_).elim
    simp only [prog, onIncomingMessage]
    split
    · intro _ o
      cases o with
      | none => trivial
      | some o => exact fun _ => trivial
    · exact fun _ => trivial
    · exact fun _ => trivial
    · exact fun _ => trivial
    · refine Safe.bind ?_ fun _ => trivial
      intro o
      cases o with
      | none => exact fun _ => trivial
      | some o => exact fun _ _ => trivial
    · exact fun _ _ => trivial
    · refine Safe.bind ?_ fun _ => trivial
      intro o
      cases o with
      | none => trivial
      | some o => exact abortRequest_safe o
    · trivial
  | respond r p =>
    simp only [prog, reply, ask_bind, bind_ask, path_ask_crash] at h
    obtain ⟨ch, l', rfl, h⟩ := h
    cases ch with
    | invalid => simp at h
    | gone => simp at h
    | ok m0 =>
      simp only [respondToRequest, sendBack, reduceCtorEq, if_false, ask_bind, bind_ask, path_ask_crash] at h
      obtain ⟨o, l', rfl, h⟩ := h
      cases o with
      | none => simp at h; subst h; exact ⟨r, p, m0, rfl, rfl⟩
      | some r' => exact (Safe.path h (fun _ _ => trivial)).elim
  | update r p =>
    refine (Safe.path h ?_).elim
    refine Safe.bind ?_ fun _ => trivial
    intro ch
    cases ch with
    | invalid => trivial
    | gone => trivial
    | ok m0 =>
      simp only [respondToRequest, if_true]
      intro o
      cases o with
      | none => trivial
      | some o => exact fun _ => trivial
  | isValid r => exact (Safe.path h (fun _ => trivial)).elim
  | onAborted r f =>
    refine (Safe.path h ?_).elim
    refine Safe.bind ?_ fun _ => trivial
    intro b
    cases b with
    | true => trivial
    | false => exact fun _ _ => trivial
  | setStatus op p =>
    refine (Safe.path h ?_).elim
    refine Safe.bind ?_ fun _ => trivial
    intro b
    cases b with
    | true => exact broadcast_safe _ _ _
    | false => trivial
  | removeProperty op b =>
    refine (Safe.path h ?_).elim
    refine Safe.bind ?_ fun _ => trivial
    intro _
    cases b with
    | true => exact broadcast_safe _ _ _
    | false => trivial
  | broadcastSignal op p => exact (Safe.path h ((broadcast_safe _ _ _).bind fun _ => trivial)).elim
  | getStatus op => exact (Safe.path h (fun _ => trivial)).elim
  | registerHandler op f =>
    cases f with
    | none => exact (Safe.path h trivial).elim
    | some f => exact (Safe.path h (fun _ => trivial)).elim
  | unregisterHandler op => exact (Safe.path h (fun _ => trivial)).elim
  | listen op f => exact (Safe.path h (fun _ => trivial)).elim
  | deinit => exact (Safe.path h (deinit_safe.bind fun _ => trivial)).elim
  | destroy => exact (Safe.path h (fun _ => deinit_safe.bind fun _ => trivial)).elim

end Maf.Prov
